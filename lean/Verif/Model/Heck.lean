import Verif.Model.Text
/-!
# heck.go: snake case and Pascal case

Strings are byte strings, `range s` decodes runes as Go does (an invalid byte is U+FFFD of width 1).  The Unicode tables
(`unicode.IsLetter`, `IsDigit`, `IsUpper`, `IsLower`, `ToLower`, `ToUpper`) are a parameter `U`.  The code uses indices
of runes as indices of bytes (heck.go:69,87,107,134,302,320,340); so does the model, and slicing out of range panics.
-/
namespace Verif

/-- The parts of package `unicode` used; runes are numbers. -/
structure Uni where
  isLetter : Nat → Bool
  isDigit : Nat → Bool
  isUpper : Nat → Bool
  isLower : Nat → Bool
  toLower : Nat → Nat
  toUpper : Nat → Nat

/-- The rune encoded by one valid UTF-8 sequence. -/
def runeValue : Bytes → Nat
  | [a] => a.toNat
  | [a, b] => (a.toNat - 0xC0) * 64 + (b.toNat - 0x80)
  | [a, b, c] => (a.toNat - 0xE0) * 4096 + (b.toNat - 0x80) * 64 + (c.toNat - 0x80)
  | [a, b, c, d] => (a.toNat - 0xF0) * 262144 + (b.toNat - 0x80) * 4096 + (c.toNat - 0x80) * 64 + (d.toNat - 0x80)
  | _ => 0

/-- `range s`: each rune with the bytes it came from; `fuel` = bytes left. -/
def runesAux : Nat → Bytes → List (Nat × Bytes)
  | 0, _ => []
  | _ + 1, [] => []
  | fuel + 1, b :: rest =>
    match runeWidth (b :: rest) with
    | some w => (runeValue ((b :: rest).take w), (b :: rest).take w) :: runesAux fuel ((b :: rest).drop w)
    | none => (0xFFFD, [b]) :: runesAux fuel rest

/-- `range s`. -/
def runesOf (s : Bytes) : List (Nat × Bytes) := runesAux s.length s

/-- Go std `strings.Map(f, s)` for an `f` that drops nothing: `strings.ToLower`, `strings.ToUpper`. -/
def mapRunes (f : Nat → Nat) (s : Bytes) : Bytes := (runesOf s).flatMap fun r => utf8Encode (f r.1)

/-- Go std `strings.FieldsFunc`: maximal runs of runes for which `sep` is false; `cur` is the run being read. -/
def fieldsFunc (sep : Nat → Bool) : List (Nat × Bytes) → Bytes → List Bytes
  | [], cur => if cur = [] then [] else [cur]
  | r :: rest, cur =>
    if sep r.1 then
      if cur = [] then fieldsFunc sep rest [] else cur :: fieldsFunc sep rest []
    else fieldsFunc sep rest (cur ++ r.2)

/-- `splitIntoWords` (heck.go:237-242). -/
def splitIntoWords (U : Uni) (s : Bytes) : List Bytes :=
  fieldsFunc (fun r => !(U.isLetter r || U.isDigit r)) (runesOf s) []

/-- `s[lo:hi]` -/
def goSlice (s : Bytes) (lo hi : Nat) : Res Bytes :=
  if lo ≤ hi ∧ hi ≤ s.length then .ok ((s.drop lo).take (hi - lo)) else .panic

/-- `_WordMode` (heck.go:244-254). -/
inductive WordMode where
  | boundary | lowercase | uppercase
  deriving DecidableEq, Repr

/-- `if !first_word { boundary }; with_word(part)` on the builder (heck.go:63-70, 79-88, 99-108). -/
def heckEmit (withWord : Bytes → Res Bytes) (sep : Bytes) (part : Res Bytes) (first : Bool) (out : Bytes) : Res Bytes :=
  match part with
  | .ok p =>
    match withWord p with
    | .ok t => .ok (out ++ (if first then [] else sep) ++ t)
    | .err x => .err x
    | .panic => .panic
  | .err x => .err x
  | .panic => .panic

/-- The inner loop of `transform` (heck.go:35-111); `ToRustSnakeCase` repeats it word for word (heck.go:268-344).
`runes` are the runes from index `i` on; result: `first_word` and the builder. -/
def heckWord (U : Uni) (withWord : Bytes → Res Bytes) (sep word : Bytes) :
    List Nat → Nat → Nat → WordMode → Bool → Bytes → Res (Bool × Bytes)
  | [], _, _, _, first, out => .ok (first, out)
  | c :: rest, i, init, mode, first, out =>
    if c = 95 then heckWord U withWord sep word rest (i + 1) (if init = i then init + 1 else init) mode first out
    else
      match rest with
      | [] =>
        match heckEmit withWord sep (goSlice word init word.length) first out with
        | .ok o => .ok (false, o)
        | .err x => .err x
        | .panic => .panic
      | next :: _ =>
        let nextMode := if U.isLower c then .lowercase else if U.isUpper c then .uppercase else mode
        if next = 95 ∨ (nextMode = .lowercase ∧ U.isUpper next = true) then
          match heckEmit withWord sep (goSlice word init (i + 1)) first out with
          | .ok o => heckWord U withWord sep word rest (i + 1) (i + 1) .boundary false o
          | .err x => .err x
          | .panic => .panic
        else if mode = .uppercase ∧ U.isUpper c = true ∧ U.isLower next = true then
          match heckEmit withWord sep (goSlice word init i) first out with
          | .ok o => heckWord U withWord sep word rest (i + 1) i .boundary false o
          | .err x => .err x
          | .panic => .panic
        else heckWord U withWord sep word rest (i + 1) init nextMode first out

/-- The outer loop (heck.go:30-112, 263-345). -/
def heckWords (U : Uni) (withWord : Bytes → Res Bytes) (sep : Bytes) : List Bytes → Bool → Bytes → Res Bytes
  | [], _, out => .ok out
  | w :: ws, first, out =>
    match heckWord U withWord sep w ((runesOf w).map (·.1)) 0 0 .boundary first out with
    | .ok (f, o) => heckWords U withWord sep ws f o
    | .err x => .err x
    | .panic => .panic

/-- `ToRustSnakeCase` (heck.go:258-348). -/
def toRustSnakeCase (U : Uni) (s : Bytes) : Res Bytes :=
  heckWords U (fun w => .ok (mapRunes U.toLower w)) [95] (splitIntoWords U s) true []

/-- `ToSnakeForSighash` (heck.go:164-166). -/
def toSnakeForSighash (U : Uni) (s : Bytes) : Res Bytes := toRustSnakeCase U s

/-- `lowercase` (heck.go:152-162), runes of the string: a final capital sigma becomes final small sigma. -/
def heckLowercase (U : Uni) : List Nat → Bytes
  | [] => []
  | c :: rest =>
    (if c = 0x3A3 ∧ rest.headD 0 = 0 then [0xCF, 0x82] else utf8Encode (U.toLower c)) ++ heckLowercase U rest

/-- `capitalize` (heck.go:129-137): the first rune in upper case, then `s[1:]`, one *byte* further, in lower case. -/
def heckCapitalize (U : Uni) (s : Bytes) : Res Bytes :=
  match runesOf s with
  | [] => .ok []
  | [c] => .ok (utf8Encode (U.toUpper c.1))
  | c :: _ :: _ =>
    match goSlice s 1 s.length with
    | .ok r => .ok (utf8Encode (U.toUpper c.1) ++ heckLowercase U ((runesOf r).map (·.1)))
    | .err x => .err x
    | .panic => .panic

/-- `ToPascalCase` (heck.go:13-19). -/
def toPascalCase (U : Uni) (s : Bytes) : Res Bytes :=
  heckWords U (heckCapitalize U) [] (splitIntoWords U s) true []

end Verif
