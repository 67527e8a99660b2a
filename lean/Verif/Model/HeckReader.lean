import Verif.Model.Heck
/-!
# heck.go: the reader, statement by statement

`Model/Heck` walks along the list of runes.  Here are `reader` (heck.go:168-234) with its index and the loops that use it, with their
variables; `Props/CasesReader` shows that both come to the same.
-/
namespace Verif

/-- Statements one after the other. -/
instance : Monad Res where
  pure := .ok
  bind x f :=
    match x with
    | .ok a => f a
    | .err e => .err e
    | .panic => .panic

/-- `reader` (heck.go:168-171). -/
structure Reader where
  runes : List Nat
  index : Int
  deriving DecidableEq, Repr

/-- `splitStringByRune` (heck.go:173-189): the callback always continues. -/
def splitStringByRune (s : Bytes) : List Nat := (runesOf s).foldl (fun res r => res ++ [r.1]) []

/-- `newReader` (heck.go:191-196). -/
def newReader (s : Bytes) : Reader := { runes := splitStringByRune s, index := -1 }

/-- `r.runes[i]` -/
def Reader.at (r : Reader) (i : Int) : Res Nat :=
  if 0 ≤ i ∧ i < r.runes.length then .ok (r.runes.getD i.toNat 0) else .panic

/-- `This` (heck.go:198-200). -/
def Reader.this (r : Reader) : Res (Int × Nat) := do
  let c ← r.at r.index
  pure (r.index, c)

/-- `HasNext` (heck.go:202-204). -/
def Reader.hasNext (r : Reader) : Bool := r.index < (r.runes.length : Int) - 1

/-- `Next` (heck.go:206-212). -/
def Reader.next (r : Reader) : Res ((Int × Nat) × Reader) :=
  if r.hasNext then do
    let r := { r with index := r.index + 1 }
    let c ← r.at r.index
    pure ((r.index, c), r)
  else .ok ((-1, 0), r)

/-- `Peek` (heck.go:214-219). -/
def Reader.peek (r : Reader) : Res (Int × Nat) :=
  if r.hasNext then do
    let c ← r.at (r.index + 1)
    pure (r.index + 1, c)
  else .ok (-1, 0)

/-- `PeekNext` (heck.go:221-226). -/
def Reader.peekNext (r : Reader) : Res Nat := if r.hasNext then r.at (r.index + 1) else .ok 0

/-- `Move` (heck.go:228-234). -/
def Reader.move (r : Reader) : Bool × Reader :=
  if r.hasNext then (true, { r with index := r.index + 1 }) else (false, r)

/-- `s[lo:hi]` with the indices of the program. -/
def sliceAt (s : Bytes) (lo hi : Int) : Res Bytes :=
  if 0 ≤ lo ∧ lo ≤ hi ∧ hi ≤ s.length then .ok ((s.drop lo.toNat).take (hi - lo).toNat) else .panic

/-- The variables of the inner loop that outlive a round: `init`, `mode`, `first_word`, and the builder. -/
structure WordVars where
  init : Int
  mode : WordMode
  first : Bool
  out : Bytes

/-- `builder.WriteString` -/
def WordVars.write (v : WordVars) (s : Bytes) : WordVars := { v with out := v.out ++ s }

/-- One round of the inner loop after `Move` (heck.go:41-110, 274-343); the flag says `break`.  `withWord` returns what `with_word`
writes; `sep` is what `boundary` writes. -/
def wordRound (U : Uni) (withWord : Bytes → Res Bytes) (sep word : Bytes) (r : Reader) (v : WordVars) : Res (WordVars × Bool) := do
  let (i, c) ← r.this
  if c = 95 then
    pure (if v.init = i then { v with init := v.init + 1 } else v, false)
  else do
    let (nextI, next) ← r.peek
    if nextI ≠ -1 then do
      let nextMode := if U.isLower c then .lowercase else if U.isUpper c then .uppercase else v.mode
      if next = 95 ∨ (nextMode = .lowercase ∧ U.isUpper next = true) then do
        let v := if !v.first then v.write sep else v
        let part ← sliceAt word v.init nextI
        let t ← withWord part
        let v := v.write t
        let v := { v with first := false }
        let v := { v with init := nextI }
        pure ({ v with mode := .boundary }, false)
      else if v.mode = .uppercase ∧ U.isUpper c = true ∧ U.isLower next = true then do
        let v := if !v.first then v.write sep else { v with first := false }
        let part ← sliceAt word v.init i
        let t ← withWord part
        let v := v.write t
        let v := { v with init := i }
        pure ({ v with mode := .boundary }, false)
      else pure ({ v with mode := nextMode }, false)
    else do
      let v := if !v.first then v.write sep else { v with first := false }
      let part ← sliceAt word v.init word.length
      let t ← withWord part
      pure (v.write t, true)

/-- `for char_indices.Move() { … }` (heck.go:40-111, 273-344); `fuel` bounds the rounds. -/
def wordLoop (U : Uni) (withWord : Bytes → Res Bytes) (sep word : Bytes) : Nat → Reader → WordVars → Res WordVars
  | 0, _, v => .ok v
  | fuel + 1, r, v =>
    match r.move with
    | (false, _) => .ok v
    | (true, r) =>
      match wordRound U withWord sep word r v with
      | .ok (v, true) => .ok v
      | .ok (v, false) => wordLoop U withWord sep word fuel r v
      | .err x => .err x
      | .panic => .panic

/-- `for _, word := range words { … }` (heck.go:30-112, 263-345). -/
def wordsLoop (U : Uni) (withWord : Bytes → Res Bytes) (sep : Bytes) : List Bytes → Bool → Bytes → Res Bytes
  | [], _, out => .ok out
  | word :: words, first, out => do
    let r := newReader word
    let v ← wordLoop U withWord sep word (r.runes.length + 1) r { init := 0, mode := .boundary, first, out }
    wordsLoop U withWord sep words v.first v.out

/-- `lowercase` (heck.go:152-162): `for chars.Move() { … }`, onto the builder `out`. -/
def lowercaseLoop (U : Uni) : Nat → Reader → Bytes → Res Bytes
  | 0, _, out => .ok out
  | fuel + 1, r, out =>
    match r.move with
    | (false, _) => .ok out
    | (true, r) => do
      let (_, c) ← r.this
      let n ← r.peekNext
      if c = 0x3A3 ∧ n = 0 then lowercaseLoop U fuel r (out ++ [0xCF, 0x82])
      else lowercaseLoop U fuel r (out ++ mapRunes U.toLower (utf8Encode c))

/-- `lowercase(s, f)` -/
def lowercaseInto (U : Uni) (s out : Bytes) : Res Bytes :=
  let r := newReader s
  lowercaseLoop U (r.runes.length + 1) r out

/-- `capitalize` (heck.go:129-137) onto an empty builder. -/
def capitalizeInto (U : Uni) (s : Bytes) : Res Bytes := do
  let r := newReader s
  let ((i, c), r) ← r.next
  if i ≠ -1 then do
    let out := mapRunes U.toUpper (utf8Encode c)
    let ((i, _), _) ← r.next
    if i ≠ -1 then do
      let s ← sliceAt s i s.length
      lowercaseInto U s out
    else pure out
  else pure []

/-- `ToRustSnakeCase` (heck.go:258-348). -/
def toRustSnakeCaseR (U : Uni) (s : Bytes) : Res Bytes :=
  wordsLoop U (fun w => .ok (mapRunes U.toLower w)) [95] (splitIntoWords U s) true []

/-- `ToPascalCase` (heck.go:13-19): `transform` with `capitalize` and no boundary. -/
def toPascalCaseR (U : Uni) (s : Bytes) : Res Bytes :=
  wordsLoop U (capitalizeInto U) [] (splitIntoWords U s) true []

end Verif
