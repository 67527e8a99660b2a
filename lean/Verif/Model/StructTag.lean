import Verif.Model.Tags
import Verif.Model.Text
/-!
# Raw struct tags: `reflect.StructTag.Get` as used by tags-parser.go

Go std `reflect.StructTag.Lookup` and `strconv.Unquote` (double-quoted literals only), complete on all byte strings.
-/
namespace Verif

/-- A byte of a key: not a control character, space, colon, quote (`StructTag.Lookup`: `tag[i] > ' ' && tag[i] != ':' &&
tag[i] != '"' && tag[i] != 0x7f`). -/
def tagKeyByte (b : UInt8) : Bool := decide (32 < b) && b != 58 && b != 34 && b != 127

/-- The loop "scan quoted string to find value" of `StructTag.Lookup`, from behind the opening quote: the literal without
its quotes, and what follows the closing quote. -/
def scanQuoted : Bytes → Option (Bytes × Bytes)
  | [] => none
  | b :: s =>
    if b = 34 then some ([], s)
    else if b = 92 then
      match s with
      | [] => none
      | c :: s =>
        match scanQuoted s with
        | some (q, r) => some (92 :: c :: q, r)
        | none => none
    else
      match scanQuoted s with
      | some (q, r) => some (b :: q, r)
      | none => none

/-- Value of `k` hex digits at the head, and the rest. -/
def hexDigits : Nat → Nat → Bytes → Option (Nat × Bytes)
  | 0, acc, s => some (acc, s)
  | k + 1, acc, b :: s =>
    match hexValue b with
    | some d => hexDigits k (16 * acc + d) s
    | none => none
  | _ + 1, _, [] => none

/-- `strconv.UnquoteChar` behind a backslash: the bytes denoted and the rest.  `\'` is refused in a double-quoted literal,
`\u` and `\U` must denote a scalar value, octal escapes a byte. -/
def unquoteEscape : Bytes → Option (Bytes × Bytes)
  | [] => none
  | c :: s =>
    if c = 97 then some ([7], s)
    else if c = 98 then some ([8], s)
    else if c = 102 then some ([12], s)
    else if c = 110 then some ([10], s)
    else if c = 114 then some ([13], s)
    else if c = 116 then some ([9], s)
    else if c = 118 then some ([11], s)
    else if c = 92 ∨ c = 34 then some ([c], s)
    else if c = 120 then
      match hexDigits 2 0 s with
      | some (v, r) => some ([UInt8.ofNat v], r)
      | none => none
    else if c = 117 ∨ c = 85 then
      match hexDigits (if c = 117 then 4 else 8) 0 s with
      | some (v, r) => if v < 0x110000 ∧ ¬ (0xD800 ≤ v ∧ v < 0xE000) then some (utf8Encode v, r) else none
      | none => none
    else if 48 ≤ c ∧ c ≤ 55 then
      match s with
      | d :: e :: r =>
        if 48 ≤ d ∧ d ≤ 55 ∧ 48 ≤ e ∧ e ≤ 55 then
          let v := 64 * (c.toNat - 48) + 8 * (d.toNat - 48) + (e.toNat - 48)
          if v ≤ 255 then some ([UInt8.ofNat v], r) else none
        else none
      | _ => none
    else none

/-- `strconv.Unquote` of a double-quoted literal, given without its quotes; `fuel` is its length.  A newline is refused, an
invalid byte becomes U+FFFD. -/
def unquoteAux : Nat → Bytes → Option Bytes
  | 0, _ => some []
  | fuel + 1, s =>
    match s with
    | [] => some []
    | b :: rest =>
      if b = 34 ∨ b = 10 then none
      else if b = 92 then
        match unquoteEscape rest with
        | some (x, r) => (unquoteAux fuel r).map (x ++ ·)
        | none => none
      else if b < 128 then (unquoteAux fuel rest).map (b :: ·)
      else
        match runeWidth (b :: rest) with
        | some w => (unquoteAux fuel ((b :: rest).drop w)).map ((b :: rest).take w ++ ·)
        | none => (unquoteAux fuel rest).map (replacement ++ ·)

/-- `strconv.Unquote`. -/
def unquote (q : Bytes) : Option Bytes := unquoteAux q.length q

/-- Go std `reflect.StructTag.Lookup`, the value; `fuel` bounds the number of pairs. -/
def tagLookup (key : Bytes) : Nat → Bytes → Option Bytes
  | 0, _ => none
  | fuel + 1, tag =>
    let t := tag.dropWhile (· == 32)
    let name := t.takeWhile tagKeyByte
    if name = [] then none
    else
      match t.dropWhile tagKeyByte with
      | 58 :: 34 :: r =>
        match scanQuoted r with
        | some (q, rest) => if key = name then unquote q else tagLookup key fuel rest
        | none => none
      | _ => none

/-- Go std `reflect.StructTag.Get`. -/
def tagGet (tag key : Bytes) : Bytes := (tagLookup key (tag.length + 1) tag).getD []

/-- "bin" (tags-parser.go:50) -/
def keyBin : Bytes := [98, 105, 110]
/-- "borsh_skip" (tags-parser.go:73) -/
def keySkip : Bytes := [98, 111, 114, 115, 104, 95, 115, 107, 105, 112]
/-- "borsh_enum" (tags-parser.go:76) -/
def keyEnum : Bytes := [98, 111, 114, 115, 104, 95, 101, 110, 117, 109]

/-- `parseFieldTag` (tags-parser.go:46-80) on the raw tag of a struct field. -/
def parseTag (raw : Bytes) : FieldTag := parseFieldTag (tagGet raw keyBin) (tagGet raw keySkip) (tagGet raw keyEnum)

end Verif
