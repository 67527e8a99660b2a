import Verif.Model.Types
/-!
# tags-parser.go

`tag.Get(key)` (package reflect) is not modelled: the parser gets the three values it asks for.
-/
namespace Verif

/-- Go std `strings.Split(s, " ")`; `cur` is the word being read. -/
def splitSpaceAux : Bytes → Bytes → List Bytes
  | [], cur => [cur]
  | b :: s, cur => if b = 32 then cur :: splitSpaceAux s [] else splitSpaceAux s (cur ++ [b])

/-- Go std `strings.Split(s, " ")`. -/
def splitSpace (s : Bytes) : List Bytes := splitSpaceAux s []

/-- UTF-8 encodings of the runes for which `unicode.IsSpace` holds. -/
def spaceRunes : List Bytes :=
  [[9], [10], [11], [12], [13], [32], [0xC2, 0x85], [0xC2, 0xA0], [0xE1, 0x9A, 0x80],
   [0xE2, 0x80, 0x80], [0xE2, 0x80, 0x81], [0xE2, 0x80, 0x82], [0xE2, 0x80, 0x83], [0xE2, 0x80, 0x84], [0xE2, 0x80, 0x85],
   [0xE2, 0x80, 0x86], [0xE2, 0x80, 0x87], [0xE2, 0x80, 0x88], [0xE2, 0x80, 0x89], [0xE2, 0x80, 0x8A],
   [0xE2, 0x80, 0xA8], [0xE2, 0x80, 0xA9], [0xE2, 0x80, 0xAF], [0xE2, 0x81, 0x9F], [0xE3, 0x80, 0x80]]

/-- `strings.TrimLeftFunc(s, unicode.IsSpace)`; `fuel` = bytes left. -/
def trimLeftAux : Nat → Bytes → Bytes
  | 0, s => s
  | fuel + 1, s =>
    match spaceRunes.find? (·.isPrefixOf s) with
    | some e => trimLeftAux fuel (s.drop e.length)
    | none => s

/-- `strings.TrimRightFunc(s, unicode.IsSpace)`; `fuel` = bytes left.  A space's first byte starts a rune, so
`DecodeLastRune` sees the space exactly when the string ends in its encoding. -/
def trimRightAux : Nat → Bytes → Bytes
  | 0, s => s
  | fuel + 1, s =>
    match spaceRunes.find? (·.isSuffixOf s) with
    | some e => trimRightAux fuel (s.take (s.length - e.length))
    | none => s

/-- Go std `strings.TrimSpace`. -/
def trimSpace (s : Bytes) : Bytes :=
  let l := trimLeftAux s.length s
  trimRightAux l.length l

/-- "sizeof=" -/
def kwSizeof : Bytes := [115, 105, 122, 101, 111, 102, 61]
/-- "big" -/
def kwBig : Bytes := [98, 105, 103]
/-- "little" -/
def kwLittle : Bytes := [108, 105, 116, 116, 108, 101]
/-- "optional" -/
def kwOptional : Bytes := [111, 112, 116, 105, 111, 110, 97, 108]
/-- "option" -/
def kwOption : Bytes := [111, 112, 116, 105, 111, 110]
/-- "coption" -/
def kwCoption : Bytes := [99, 111, 112, 116, 105, 111, 110]
/-- "binary_extension" -/
def kwExtension : Bytes := [98, 105, 110, 97, 114, 121, 95, 101, 120, 116, 101, 110, 115, 105, 111, 110]
/-- "-" -/
def kwDash : Bytes := [45]
/-- "skip" -/
def kwSkip : Bytes := [115, 107, 105, 112]
/-- "enum" -/
def kwEnum : Bytes := [101, 110, 117, 109]
/-- "true" -/
def kwTrue : Bytes := [116, 114, 117, 101]

/-- `strings.SplitN(s, "=", 2)[1]`: what follows the first "=" (the word starts with "sizeof=", so there is one). -/
def afterEq (s : Bytes) : Bytes := (s.dropWhile (· != 61)).drop 1

/-- One word of the `bin` tag (tags-parser.go:52-70). -/
def tagWord (t : FieldTag) (s : Bytes) : FieldTag :=
  if kwSizeof.isPrefixOf s then { t with sizeOf := afterEq s }
  else if s = kwBig then { t with order := .be }
  else if s = kwLittle then { t with order := .le }
  else if s = kwOptional ∨ s = kwOption then { t with option := true }
  else if s = kwCoption then { t with coption := true }
  else if s = kwExtension then { t with binExt := true }
  else if s = kwDash ∨ s = kwSkip then { t with skip := true }
  else if s = kwEnum then { t with isEnum := true }
  else t

/-- `parseFieldTag` (tags-parser.go:46-80) given the values of the `bin`, `borsh_skip` and `borsh_enum` keys. -/
def parseFieldTag (bin borshSkip borshEnum : Bytes) : FieldTag :=
  let t : FieldTag := (splitSpace bin).foldl tagWord { order := .le }
  let t := if trimSpace borshSkip = kwTrue then { t with skip := true } else t
  if trimSpace borshEnum = kwTrue then { t with isEnum := true } else t

end Verif
