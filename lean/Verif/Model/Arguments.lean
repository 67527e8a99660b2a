import Verif.Model.Interface
/-!
# Encoding selectors and the arguments of `Encode`
-/
namespace Verif

/-- The `int` behind an `Encoding` (tags-options.go:84-90). -/
def Encoding.ofInt (n : Int) : Encoding :=
  if n = 0 then .bin else if n = 1 then .compactU16 else if n = 2 then .borsh else .other

/-- `Encoding.String` (tags-options.go:92-103). -/
def Encoding.toString : Encoding → Bytes
  | .bin => "Bin".toUTF8.toList
  | .compactU16 => "CompactU16".toUTF8.toList
  | .borsh => "Borsh".toUTF8.toList
  | .other => []

/-- `IsBorsh` (tags-options.go:105-107; decoder.go:88-90, encoder.go:40-42). -/
def Encoding.isBorsh (e : Encoding) : Bool := e == .borsh
/-- `IsBin` (tags-options.go:109-111; decoder.go:92-94, encoder.go:44-46). -/
def Encoding.isBin (e : Encoding) : Bool := e == .bin
/-- `IsCompactU16` (tags-options.go:113-115; decoder.go:96-98, encoder.go:48-50). -/
def Encoding.isCompactU16 (e : Encoding) : Bool := e == .compactU16

/-- `Encode(v)` (encoder.go:75-86): `none` is `Encode(nil)`, whose `reflect.Value` is the zero `Value`; `isZero`
(utils.go:22-24) makes it write nothing (encoder_bin.go:56-58, encoder_borsh.go:110-112, encoder_compact-u16.go:55-57). -/
def encodeArg : Option (Ty × Val) → EM Unit
  | some (t, v) => encode t v
  | none => do
    let s ← M.get
    if s.enc = .other then M.panic
    else setCurE .le

end Verif
