import Verif.Model.Text
/-!
# JSON methods of types.go
-/
namespace Verif

/-- `Int64.MarshalJSON` (types.go:225-236). -/
def int64MarshalJSON (z : Int) : Bytes :=
  if z > 0xffffffff ∨ z < -0xffffffff then [34] ++ decimalInt z ++ [34] else decimalInt z

/-- `Int64.UnmarshalJSON` (types.go:238-267). -/
def int64UnmarshalJSON (data : Bytes) : Res Int :=
  match data with
  | [] => .err .parse
  | 34 :: _ =>
    match jsonString data with
    | .ok s => parseInt64 s
    | .err e => .err e
    | .panic => .panic
  | _ => jsonInt64 data

/-- `Uint64.MarshalJSON` (types.go:285-296). -/
def uint64MarshalJSON (n : Nat) : Bytes :=
  if n > 0xffffffff then [34] ++ decimal n ++ [34] else decimal n

/-- `Uint64.UnmarshalJSON` (types.go:298-327). -/
def uint64UnmarshalJSON (data : Bytes) : Res Nat :=
  match data with
  | [] => .err .parse
  | 34 :: _ =>
    match jsonString data with
    | .ok s => parseUint64 s
    | .err e => .err e
    | .panic => .panic
  | _ => jsonUint64 data

/-- `Bool.UnmarshalJSON` (types.go:46-61). -/
def boolUnmarshalJSON (data : Bytes) : Res Bool :=
  match jsonInt64 data with
  | .ok n => .ok (n ≠ 0)
  | _ => jsonBool data

/-- `HexBytes.String` (types.go:94-96). -/
def hexBytesString (t : Bytes) : Bytes := hexEncode t

/-- `HexBytes.MarshalJSON` (types.go:79-81): hex digits need no escaping. -/
def hexBytesMarshalJSON (t : Bytes) : Bytes := [34] ++ hexEncode t ++ [34]

/-- `HexBytes.UnmarshalJSON` (types.go:83-92). -/
def hexBytesUnmarshalJSON (data : Bytes) : Res Bytes :=
  match jsonString data with
  | .ok s => hexDecode s
  | .err e => .err e
  | .panic => .panic

end Verif
