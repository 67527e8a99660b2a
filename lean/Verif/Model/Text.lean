import Verif.Model.Utf8
import Verif.Model.Bits
/-!
# Text: the standard library functions behind the JSON, hex and decimal methods

Go strings are byte strings.  Models of `strconv`, `encoding/hex`, `encoding/json` (into `string`, `int64`, `uint64`,
`int`, `bool`) and of `math/big` text conversion, complete on all inputs for the target types listed.
-/
namespace Verif

/-- Decimal digits of `n` (`strconv.FormatUint(n, 10)`, `big.Int.String` of a non-negative number), most significant
first.  `fuel` bounds the number of digits (the number of bits is enough). -/
def decimalAux : Nat → Nat → Bytes
  | 0, _ => []
  | fuel + 1, n => if n < 10 then [UInt8.ofNat (48 + n)] else decimalAux fuel (n / 10) ++ [UInt8.ofNat (48 + n % 10)]

/-- `strconv.FormatUint(n, 10)`. -/
def decimal (n : Nat) : Bytes := decimalAux (n.log2 + 1) n

/-- `strconv.FormatInt(z, 10)`, `big.Int.String`. -/
def decimalInt (z : Int) : Bytes := if z < 0 then 45 :: decimal z.natAbs else decimal z.natAbs

/-- ASCII decimal digit -/
def isDigit (b : UInt8) : Bool := decide (48 ≤ b) && decide (b ≤ 57)

/-- Value of a string of decimal digits, none for any other byte. -/
def digitsValue : Nat → Bytes → Option Nat
  | acc, [] => some acc
  | acc, b :: bs => if isDigit b then digitsValue (acc * 10 + (b.toNat - 48)) bs else none

/-- Go std `strconv.ParseUint(s, 10, 64)`: at least one digit, only digits, no overflow. -/
def parseUint64 (s : Bytes) : Res Nat :=
  if s = [] then .err .parse
  else match digitsValue 0 s with
    | some n => if n < 2 ^ 64 then .ok n else .err .parse
    | none => .err .parse

/-- Go std `strconv.ParseInt(s, 10, 64)`: optional sign, then as above. -/
def parseInt64 (s : Bytes) : Res Int :=
  let (neg, body) := match s with
    | 43 :: r => (false, r)
    | 45 :: r => (true, r)
    | r => (false, r)
  if body = [] then .err .parse
  else match digitsValue 0 body with
    | some n =>
      if neg then (if n ≤ 2 ^ 63 then .ok (-(n : Int)) else .err .parse)
      else (if n < 2 ^ 63 then .ok (n : Int) else .err .parse)
    | none => .err .parse

/-! encoding/hex -/

/-- "0123456789abcdef"[d] -/
def hexDigit (d : Nat) : UInt8 := if d < 10 then UInt8.ofNat (48 + d) else UInt8.ofNat (87 + d)

/-- Go std `hex.EncodeToString`. -/
def hexEncode : Bytes → Bytes
  | [] => []
  | b :: bs => hexDigit (b.toNat / 16) :: hexDigit (b.toNat % 16) :: hexEncode bs

/-- value of a hex digit, either case -/
def hexValue (b : UInt8) : Option Nat :=
  if isDigit b then some (b.toNat - 48)
  else if 97 ≤ b ∧ b ≤ 102 then some (b.toNat - 87)
  else if 65 ≤ b ∧ b ≤ 70 then some (b.toNat - 55)
  else none

/-- Go std `hex.DecodeString`: error on a byte that is no hex digit and on odd length.  (For the bytes returned with
an error see `hexDecoded`.) -/
def hexDecode : Bytes → Res Bytes
  | [] => .ok []
  | [_] => .err .parse
  | a :: b :: rest =>
    match hexValue a, hexValue b with
    | some x, some y =>
      match hexDecode rest with
      | .ok r => .ok (UInt8.ofNat (16 * x + y) :: r)
      | .err e => .err e
      | .panic => .panic
    | _, _ => .err .parse

/-! encoding/json -/

/-- JSON white space -/
def isSpace (b : UInt8) : Bool := b == 32 || b == 9 || b == 10 || b == 13

/-- A JSON value surrounded by white space. -/
def trimJson (s : Bytes) : Bytes := ((s.dropWhile isSpace).reverse.dropWhile isSpace).reverse

/-- "null" -/
def jsonNull : Bytes := [110, 117, 108, 108]

/-- `utf8.AppendRune` of a code point (`< 0x110000`, no surrogate). -/
def utf8Encode (r : Nat) : Bytes :=
  if r < 0x80 then [UInt8.ofNat r]
  else if r < 0x800 then [UInt8.ofNat (0xC0 + r / 64), UInt8.ofNat (0x80 + r % 64)]
  else if r < 0x10000 then [UInt8.ofNat (0xE0 + r / 4096), UInt8.ofNat (0x80 + r / 64 % 64), UInt8.ofNat (0x80 + r % 64)]
  else [UInt8.ofNat (0xF0 + r / 262144), UInt8.ofNat (0x80 + r / 4096 % 64), UInt8.ofNat (0x80 + r / 64 % 64),
    UInt8.ofNat (0x80 + r % 64)]

/-- The four hex digits of a `\u` escape. -/
def hex4 (a b c d : UInt8) : Option Nat :=
  match hexValue a, hexValue b, hexValue c, hexValue d with
  | some w, some x, some y, some z => some (4096 * w + 256 * x + 16 * y + z)
  | _, _, _, _ => none

/-- One-character escapes. -/
def jsonEscape (b : UInt8) : Option UInt8 :=
  if b = 34 ∨ b = 92 ∨ b = 47 then some b
  else if b = 98 then some 8
  else if b = 102 then some 12
  else if b = 110 then some 10
  else if b = 114 then some 13
  else if b = 116 then some 9
  else none

/-- `\uXXXX` of a code unit: surrogate pairs are combined, lone surrogates become U+FFFD (json `unquoteBytes`).  Returns
the bytes and the number of input bytes after the first escape that are consumed too. -/
def jsonRune (r : Nat) (rest : Bytes) : Bytes × Nat :=
  if 0xD800 ≤ r ∧ r < 0xE000 then
    match rest with
    | 92 :: 117 :: a :: b :: c :: d :: _ =>
      match hex4 a b c d with
      | some r2 =>
        if r < 0xDC00 ∧ 0xDC00 ≤ r2 ∧ r2 < 0xE000 then
          (utf8Encode (0x10000 + (r - 0xD800) * 1024 + (r2 - 0xDC00)), 6)
        else (replacement, 0)
      | none => (replacement, 0)
    | _ => (replacement, 0)
  else (utf8Encode r, 0)

/-- The inside of a JSON string literal up to its closing quote, which must be the last byte; `fuel` is its length.
Invalid UTF-8 is replaced by U+FFFD. -/
def jsonUnquote : Nat → Bytes → Res Bytes
  | 0, _ => .err .parse
  | fuel + 1, s =>
    match s with
    | [] => .err .parse
    | b :: rest =>
      let cons (p : Bytes) (r : Res Bytes) : Res Bytes :=
        match r with
        | .ok t => .ok (p ++ t)
        | .err e => .err e
        | .panic => .panic
      if b = 34 then (if rest = [] then .ok [] else .err .parse)
      else if b = 92 then
        match rest with
        | 117 :: a :: b :: c :: d :: rest =>
          match hex4 a b c d with
          | some r => cons (jsonRune r rest).1 (jsonUnquote fuel (rest.drop (jsonRune r rest).2))
          | none => .err .parse
        | e :: rest =>
          match jsonEscape e with
          | some x => cons [x] (jsonUnquote fuel rest)
          | none => .err .parse
        | [] => .err .parse
      else if b < 32 then .err .parse
      else if b < 128 then cons [b] (jsonUnquote fuel rest)
      else
        match runeWidth (b :: rest) with
        | some w => cons ((b :: rest).take w) (jsonUnquote fuel ((b :: rest).drop w))
        | none => cons replacement (jsonUnquote fuel rest)

/-- Go std `json.Unmarshal(data, &s)` into a fresh `string`: `null` leaves it empty, anything but a string is an error. -/
def jsonString (data : Bytes) : Res Bytes :=
  let t := trimJson data
  if t = jsonNull then .ok []
  else match t with
    | 34 :: rest => jsonUnquote rest.length rest
    | _ => .err .parse

/-- JSON integer literal: no leading zeros. -/
def jsonDigits (s : Bytes) : Option Nat :=
  match s with
  | [] => none
  | [b] => digitsValue 0 [b]
  | 48 :: _ => none
  | bs => digitsValue 0 bs

/-- Go std `json.Unmarshal(data, &v)` into a fresh `int64` (`int`): a JSON number with fraction or exponent is a type
error, so is one out of range. -/
def jsonInt64 (data : Bytes) : Res Int :=
  let t := trimJson data
  if t = jsonNull then .ok 0
  else match t with
    | 45 :: r =>
      match jsonDigits r with
      | some n => if n ≤ 2 ^ 63 then .ok (-(n : Int)) else .err .parse
      | none => .err .parse
    | r =>
      match jsonDigits r with
      | some n => if n < 2 ^ 63 then .ok (n : Int) else .err .parse
      | none => .err .parse

/-- Go std `json.Unmarshal(data, &v)` into a fresh `uint64`. -/
def jsonUint64 (data : Bytes) : Res Nat :=
  let t := trimJson data
  if t = jsonNull then .ok 0
  else match jsonDigits t with
    | some n => if n < 2 ^ 64 then .ok n else .err .parse
    | none => .err .parse

/-- Go std `json.Unmarshal(data, &v)` into a fresh `bool`. -/
def jsonBool (data : Bytes) : Res Bool :=
  let t := trimJson data
  if t = jsonNull then .ok false
  else if t = [116, 114, 117, 101] then .ok true
  else if t = [102, 97, 108, 115, 101] then .ok false
  else .err .parse

/-! math/big -/

/-- `big.Int.SetBytes`: big-endian unsigned. -/
def bigSetBytes (b : Bytes) : Nat := b.foldl (fun acc x => acc * 256 + x.toNat) 0

/-- Minimal big-endian bytes of `n` (`big.Int.Bytes`); `fuel` bounds their number. -/
def bigBytesAux : Nat → Nat → Bytes
  | 0, _ => []
  | fuel + 1, n => if n = 0 then [] else bigBytesAux fuel (n / 256) ++ [UInt8.ofNat n]

/-- `big.Int.Bytes` of the absolute value. -/
def bigBytes (n : Nat) : Bytes := bigBytesAux (n.log2 + 1) n

/-- `big.Int.FillBytes(make([]byte, k))`: absolute value, panics if it does not fit. -/
def bigFillBytes (k : Nat) (z : Int) : Res Bytes :=
  if z.natAbs < 256 ^ k then .ok (putUint .be k z.natAbs) else .panic

/-- Value of a letter or digit as a digit (nat.scan). -/
def scanDigit (b : UInt8) : Option Nat :=
  if isDigit b then some (b.toNat - 48)
  else if 97 ≤ b ∧ b ≤ 122 then some (b.toNat - 87)
  else if 65 ≤ b ∧ b ≤ 90 then some (b.toNat - 55)
  else none

/-- Digit loop of `nat.scan` with separators (base argument 0): `afterDigit` tells whether a digit (or the prefix)
precedes, `count` how many digits were seen.  The whole string must be consumed (`Int.SetString`). -/
def scanDigits (base : Nat) : Bool → Nat → Nat → Bytes → Option Nat
  | afterDigit, count, acc, [] => if afterDigit ∧ 0 < count then some acc else none
  | afterDigit, count, acc, b :: bs =>
    if b = 95 then (if afterDigit then scanDigits base false count acc bs else none)
    else match scanDigit b with
      | some d => if d < base then scanDigits base true (count + 1) (acc * base + d) bs else none
      | none => none

/-- `nat.scan` with base 0: prefixes `0b`, `0o`, `0x` and `0` (octal). -/
def scanNat (s : Bytes) : Option Nat :=
  match s with
  | [48] => some 0
  | 48 :: c :: rest =>
    if c = 98 ∨ c = 66 then scanDigits 2 true 0 0 rest
    else if c = 111 ∨ c = 79 then scanDigits 8 true 0 0 rest
    else if c = 120 ∨ c = 88 then scanDigits 16 true 0 0 rest
    else scanDigits 8 true 0 0 (c :: rest)
  | s => scanDigits 10 false 0 0 s

/-- `(&big.Int{}).SetString(s, 0)`. -/
def bigSetString (s : Bytes) : Option Int :=
  match s with
  | 43 :: r => (scanNat r).map fun (n : Nat) => (n : Int)
  | 45 :: r => (scanNat r).map fun (n : Nat) => -(n : Int)
  | r => (scanNat r).map fun (n : Nat) => (n : Int)

end Verif
