import Verif.Basic
/-!
# UTF-8 repair used by `SafeReadUTF8String`

`strings.Map(fixUtf, s)` (decoder.go:606-620): every rune is kept, every byte that is not part of a valid
UTF-8 sequence is decoded by `range` as `utf8.RuneError` with width 1 and replaced by U+FFFD.
-/
namespace Verif

/-- continuation byte within `[lo, hi]` -/
def inRange (b lo hi : UInt8) : Bool := decide (lo ≤ b) && decide (b ≤ hi)

/-- Width of the valid UTF-8 sequence at the head of the string, `none` if the head byte does not start one.
Go std `utf8.DecodeRuneInString` (table `first` / `acceptRanges`). -/
def runeWidth : Bytes → Option Nat
  | [] => none
  | b0 :: rest =>
    if b0 < 0x80 then some 1
    else if inRange b0 0xC2 0xDF then
      match rest with
      | b1 :: _ => if inRange b1 0x80 0xBF then some 2 else none
      | _ => none
    else if inRange b0 0xE0 0xEF then
      match rest with
      | b1 :: b2 :: _ =>
        let lo := if b0 = 0xE0 then 0xA0 else 0x80
        let hi := if b0 = 0xED then 0x9F else 0xBF
        if inRange b1 lo hi && inRange b2 0x80 0xBF then some 3 else none
      | _ => none
    else if inRange b0 0xF0 0xF4 then
      match rest with
      | b1 :: b2 :: b3 :: _ =>
        let lo := if b0 = 0xF0 then 0x90 else 0x80
        let hi := if b0 = 0xF4 then 0x8F else 0xBF
        if inRange b1 lo hi && inRange b2 0x80 0xBF && inRange b3 0x80 0xBF then some 4 else none
      | _ => none
    else none

/-- UTF-8 encoding of U+FFFD, the replacement written by `fixUtf` (decoder.go:615-620). -/
def replacement : Bytes := [0xEF, 0xBF, 0xBD]

/-- `strings.Map(fixUtf, s)` (decoder.go:608). `fuel` = number of bytes left, enough because each step consumes
at least one byte. -/
def fixUtf8Aux : Nat → Bytes → Bytes
  | 0, _ => []
  | _ + 1, [] => []
  | fuel + 1, b :: rest =>
    match runeWidth (b :: rest) with
    | some w => (b :: rest).take w ++ fixUtf8Aux fuel ((b :: rest).drop w)
    | none => replacement ++ fixUtf8Aux fuel rest

def fixUtf8 (s : Bytes) : Bytes := fixUtf8Aux s.length s

end Verif
