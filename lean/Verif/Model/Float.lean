import Verif.Model.Text
/-!
# `strconv.ParseFloat(s, 64)` and `JSONFloat64.UnmarshalJSON`

The text is read as the functions `special`, `readFloat` and `underscoreOK` of Go's `strconv` read it, except that the mantissa is
kept exactly (the code keeps 19 digits and goes back to the text when that is not enough).  The value is rounded to the nearest
double by exact arithmetic; that the faster algorithms of `strconv` do the same is assumed.  Floats are bit patterns.
-/
namespace Verif

/-- The double nearest to `p / q`, ties to even; `none` if it is out of range. -/
def roundFloat (p q : Nat) : Option Nat :=
  let n := p * 2 ^ 1074
  let k := (n / q).log2 - 52
  let d := q * 2 ^ k
  let m := n / d
  let r := n % d
  let m' := if 2 * r > d ∨ 2 * r = d ∧ m % 2 = 1 then m + 1 else m
  let bits := k * 2 ^ 52 + m'
  if bits < 0x7FF * 2 ^ 52 then some bits else none

/-- The digit loop of `readFloat`: mantissa, number of digits behind the point, was there a digit, what is left.  Underscores are
skipped. -/
def scanFloatDigits (base : Nat) : Bool → Bool → Nat → Nat → Bytes → Nat × Nat × Bool × Bytes
  | _, digits, mant, frac, [] => (mant, frac, digits, [])
  | dot, digits, mant, frac, b :: bs =>
    if b = 95 then scanFloatDigits base dot digits mant frac bs
    else if b = 46 then
      if dot then (mant, frac, digits, b :: bs) else scanFloatDigits base true digits mant frac bs
    else
      match scanDigit b with
      | some d =>
        if d < base then scanFloatDigits base dot true (mant * base + d) (if dot then frac + 1 else frac) bs
        else (mant, frac, digits, b :: bs)
      | none => (mant, frac, digits, b :: bs)

/-- The digit loop of the exponent: further digits are ignored from 10000 on.  `none` if something is left over. -/
def scanExpDigits : Nat → Bytes → Option Nat
  | e, [] => some e
  | e, b :: bs =>
    if isDigit b then scanExpDigits (if e < 10000 then e * 10 + (b.toNat - 48) else e) bs
    else if b = 95 then scanExpDigits e bs
    else none

/-- An exponent must begin with a digit. -/
def scanExp (s : Bytes) : Option Nat :=
  match s with
  | b :: _ => if isDigit b then scanExpDigits 0 s else none
  | [] => none

/-- The exponent after the letter `c` (in lower case), to the end of the text. -/
def floatExp (c : UInt8) (s : Bytes) : Option Int :=
  match s with
  | b :: r =>
    if b = c ∨ b + 32 = c then
      match r with
      | 43 :: r => (scanExp r).map fun (e : Nat) => (e : Int)
      | 45 :: r => (scanExp r).map fun (e : Nat) => -(e : Int)
      | r => (scanExp r).map fun (e : Nat) => (e : Int)
    else none
  | [] => none

/-- What `underscoreOK` has seen last: a digit or the base prefix, an underscore, something else. -/
inductive Saw where
  | digit | underscore | other
  deriving DecidableEq

/-- The loop of `underscoreOK`. -/
def underscoresFrom (hex : Bool) : Saw → Bytes → Bool
  | saw, [] => saw != .underscore
  | saw, b :: bs =>
    if isDigit b || hex && (hexValue b).isSome then underscoresFrom hex .digit bs
    else if b = 95 then (if saw = .digit then underscoresFrom hex .underscore bs else false)
    else if saw = .underscore then false
    else underscoresFrom hex .other bs

/-- `underscoreOK` on a text without sign. -/
def underscoreOK (s : Bytes) : Bool :=
  match s with
  | 48 :: c :: rest =>
    if c = 98 ∨ c = 66 ∨ c = 111 ∨ c = 79 then underscoresFrom false .digit rest
    else if c = 120 ∨ c = 88 then underscoresFrom true .digit rest
    else underscoresFrom false .other s
  | s => underscoresFrom false .other s

/-- Whether `0x` is in front of something, and what follows it. -/
def floatPrefix (s : Bytes) : Bool × Bytes :=
  match s with
  | 48 :: c :: b :: rest => if c = 120 ∨ c = 88 then (true, b :: rest) else (false, s)
  | s => (false, s)

/-- `readFloat` on a text without sign: mantissa and the power of 10 or 2 it is multiplied with. -/
def readFloat (s : Bytes) : Option (Nat × Nat × Int) :=
  let (hex, body) := floatPrefix s
  let (mant, frac, digits, rest) := scanFloatDigits (if hex then 16 else 10) false false 0 0 body
  if digits then
    match (if hex then floatExp 112 rest else if rest = [] then some 0 else floatExp 101 rest) with
    | some e =>
      if s.contains 95 && !underscoreOK s then none
      else if hex then some (mant, 2, e - 4 * frac) else some (mant, 10, e - frac)
    | none => none
  else none

/-- ASCII letter in lower case. -/
def lowerAscii (b : UInt8) : UInt8 := if 65 ≤ b ∧ b ≤ 90 then b + 32 else b

/-- `math.Inf(1)` -/
def floatInf : Nat := 0x7FF0000000000000
/-- `math.NaN()` -/
def floatNaN : Nat := 0x7FF8000000000001

/-- "inf" or "infinity" -/
def isInf (s : Bytes) : Bool :=
  let t := s.map lowerAscii
  t == [105, 110, 102] || t == [105, 110, 102, 105, 110, 105, 116, 121]

/-- `m * b^z`, rounded. -/
def floatOf (m b : Nat) (z : Int) : Option Nat := roundFloat (m * b ^ z.toNat) (b ^ (-z).toNat)

/-- `ParseFloat` of a text without sign. -/
def parseUnsignedFloat (s : Bytes) : Option Nat :=
  if isInf s then some floatInf
  else
    match readFloat s with
    | some (m, b, z) => floatOf m b z
    | none => none

/-- `strconv.ParseFloat(s, 64)`: a value out of range is an error. -/
def parseFloat (s : Bytes) : Res Nat :=
  if s.map lowerAscii = [110, 97, 110] then .ok floatNaN
  else
    match s with
    | 45 :: r =>
      match parseUnsignedFloat r with
      | some b => .ok (2 ^ 63 + b)
      | none => .err .parse
    | 43 :: r =>
      match parseUnsignedFloat r with
      | some b => .ok b
      | none => .err .parse
    | s =>
      match parseUnsignedFloat s with
      | some b => .ok b
      | none => .err .parse

/-- One or more digits, and what follows them. -/
def jsonDigits1 (s : Bytes) : Option Bytes :=
  match s with
  | b :: r => if isDigit b then some (r.dropWhile isDigit) else none
  | [] => none

/-- The exponent of a JSON number, to the end. -/
def jsonExpOk (s : Bytes) : Bool :=
  match s with
  | [] => true
  | b :: r =>
    (b == 101 || b == 69) &&
      match r with
      | 43 :: r => jsonDigits1 r == some []
      | 45 :: r => jsonDigits1 r == some []
      | r => jsonDigits1 r == some []

/-- Fraction and exponent of a JSON number, to the end. -/
def jsonFracOk (s : Bytes) : Bool :=
  match s with
  | 46 :: r =>
    match jsonDigits1 r with
    | some r => jsonExpOk r
    | none => false
  | r => jsonExpOk r

/-- A JSON number without sign. -/
def jsonUnsignedOk (s : Bytes) : Bool :=
  match s with
  | 48 :: r => jsonFracOk r
  | s =>
    match jsonDigits1 s with
    | some r => jsonFracOk r
    | none => false

/-- The scanner of `encoding/json` accepts the text as a number. -/
def jsonNumberOk (s : Bytes) : Bool :=
  match s with
  | 45 :: r => jsonUnsignedOk r
  | s => jsonUnsignedOk s

/-- Go std `json.Unmarshal(data, &fl)` into a fresh `float64`. -/
def jsonFloat (data : Bytes) : Res Nat :=
  let t := trimJson data
  if t = jsonNull then .ok 0
  else if jsonNumberOk t then parseFloat t
  else .err .parse

/-- `JSONFloat64.UnmarshalJSON` (types.go:178-208). -/
def jsonFloat64UnmarshalJSON (data : Bytes) : Res Nat :=
  match data with
  | [] => .err .parse
  | 34 :: _ =>
    match jsonString data with
    | .ok s => parseFloat s
    | .err e => .err e
    | .panic => .panic
  | _ => jsonFloat data

end Verif
