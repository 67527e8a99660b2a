import Verif.Model.Json
import Verif.Model.Float
import Verif.Model.U128
/-!
# `UnmarshalJSON` with its receiver

The state is what the receiver holds; unlike `Model/Json`, `Model/Float` and `Model/U128` this also says what it holds after an
error or a panic.
-/
namespace Verif

/-- `*r = x` -/
def M.assign {σ : Type} (x : σ) : M σ Unit := M.modify fun _ => x

/-- `Int64.UnmarshalJSON` (types.go:238-267). -/
def int64Into (data : Bytes) : M Int Unit :=
  match data with
  | [] => M.err .parse
  | 34 :: _ => do
    let s ← M.lift (jsonString data)
    let val ← M.lift (parseInt64 s)
    M.assign val
  | _ => do
    let v ← M.lift (jsonInt64 data)
    M.assign v

/-- `Uint64.UnmarshalJSON` (types.go:298-327). -/
def uint64Into (data : Bytes) : M Nat Unit :=
  match data with
  | [] => M.err .parse
  | 34 :: _ => do
    let s ← M.lift (jsonString data)
    let val ← M.lift (parseUint64 s)
    M.assign val
  | _ => do
    let v ← M.lift (jsonUint64 data)
    M.assign v

/-- `Bool.UnmarshalJSON` (types.go:46-61). -/
def boolInto (data : Bytes) : M Bool Unit :=
  match jsonInt64 data with
  | .ok num => M.assign (num ≠ 0)
  | _ => do
    let b ← M.lift (jsonBool data)
    M.assign b

/-- `JSONFloat64.UnmarshalJSON` (types.go:178-207). -/
def jsonFloat64Into (data : Bytes) : M Nat Unit :=
  match data with
  | [] => M.err .parse
  | 34 :: _ => do
    let s ← M.lift (jsonString data)
    let val ← M.lift (parseFloat s)
    M.assign val
  | _ => do
    let fl ← M.lift (jsonFloat data)
    M.assign fl

/-- The bytes that Go std `hex.DecodeString` returns, also together with an error: `hex.Decode` stops at the first pair that is not
two hex digits and returns how many it has decoded. -/
def hexDecoded : Bytes → Bytes
  | a :: b :: rest =>
    match hexValue a, hexValue b with
    | some x, some y => UInt8.ofNat (16 * x + y) :: hexDecoded rest
    | _, _ => []
  | _ => []

/-- `HexBytes.UnmarshalJSON` (types.go:83-92): `*t, err = hex.DecodeString(s)` assigns in any case, and never nil. -/
def hexBytesInto (data : Bytes) : M (Option Bytes) Unit := do
  let s ← M.lift (jsonString data)
  M.assign (some (hexDecoded s))
  match hexDecode s with
  | .ok _ => pure ()
  | .err e => M.err e
  | .panic => M.panic

/-- `unmarshalJSON_decimal` (u128.go:123-141). -/
def u128DecimalInto (s : Bytes) : M U128 Unit :=
  match bigSetString s with
  | none => M.err .parse
  | some parsed => do
    let oo ← M.lift (bigFillBytes 16 parsed)
    let i ← M.get
    let out ← M.lift (readUint128 i.order (Dec.new (reverseBytes oo) .bin)).1
    M.modify fun i => { i with lo := out.1 }
    M.modify fun i => { i with hi := out.2 }

/-- `unmarshalJSON_hex` (u128.go:143-164), one assignment after the other. -/
def u128HexInto (s : Bytes) : M U128 Unit :=
  let truncatedVal := s.drop 2
  if truncatedVal.length ≠ 16 then M.err .parse
  else do
    let data ← M.lift (hexDecode truncatedVal)
    let i ← M.get
    match i.order with
    | .le => do
      let lo ← M.lift (getUint .le 8 (data.take 8))
      M.modify fun i => { i with lo := lo }
      let hi ← M.lift (getUint .le 8 (data.drop 8))
      M.modify fun i => { i with hi := hi }
    | .be => do
      let hi ← M.lift (getUint .be 8 (data.take 8))
      M.modify fun i => { i with hi := hi }
      let lo ← M.lift (getUint .be 8 (data.drop 8))
      M.modify fun i => { i with lo := lo }

/-- `Uint128.UnmarshalJSON` (u128.go:106-121). -/
def uint128Into (data : Bytes) : M U128 Unit :=
  if data = jsonNull then pure ()
  else do
    let s ← M.lift (jsonString data)
    if s.take 2 = [48, 120] ∨ s.take 2 = [48, 88] then u128HexInto s else u128DecimalInto s

/-- `Int128.UnmarshalJSON` (u128.go:222-232), `Float128.UnmarshalJSON` (266-276). -/
def int128Into (data : Bytes) : M U128 Unit := do
  let el ← M.lift (match uint128Into (trimJson data) { lo := 0, hi := 0, endianness := none } with
    | (.ok _, el) => Res.ok el
    | (.err e, _) => .err e
    | (.panic, _) => .panic)
  M.assign el

end Verif
