import Verif.Model.Text
import Verif.Model.Decoder
/-!
# u128.go: values, text and JSON of `Uint128`, `Int128`, `Float128`

(Their binary encoding is in EncodeReflect / DecodeReflect.)
-/
namespace Verif

/-- `Uint128` (u128.go:30-34), `Int128` (193), `Float128` (260). -/
structure U128 where
  lo : Nat
  hi : Nat
  endianness : Option Order
  deriving DecidableEq, Repr

/-- Both words are `uint64`. -/
def U128.Valid (i : U128) : Prop := i.lo < 2 ^ 64 ∧ i.hi < 2 ^ 64

/-- `getByteOrder` (u128.go:48-60). -/
def U128.order (i : U128) : Order := i.endianness.getD .le

/-- `s[i], s[j] = s[j], s[i]` -/
def swapAt (s : Bytes) (i j : Nat) : Bytes := (s.set i (s[j]?.getD 0)).set j (s[i]?.getD 0)

/-- Loop of `ReverseBytes` (u128.go:101-103) from the indices `i`, `j`; `fuel` bounds the number of swaps. -/
def reverseLoop : Nat → Bytes → Nat → Nat → Bytes
  | 0, s, _, _ => s
  | fuel + 1, s, i, j => if i < j then reverseLoop fuel (swapAt s i j) (i + 1) (j - 1) else s

/-- `ReverseBytes` (u128.go:100-104): the slice's content afterwards.  For the empty slice Go's `j` is -1, here 0: no
iteration either way. -/
def reverseBytes (s : Bytes) : Bytes := reverseLoop s.length s 0 (s.length - 1)

/-- `Uint128.Bytes` (u128.go:62-74). -/
def U128.bytes (i : U128) : Bytes :=
  match i.order with
  | .le => reverseBytes (putUint .le 8 i.lo ++ putUint .le 8 i.hi)
  | .be => putUint .be 8 i.hi ++ putUint .be 8 i.lo

/-- `Uint128.BigInt` (u128.go:76-80). -/
def U128.bigInt (i : U128) : Int := (bigSetBytes i.bytes : Int)

/-- `twosComplement` (utils.go:26-34). -/
def twosComplement (v : Bytes) : Bytes := bigBytes (bigSetBytes (v.map (· ^^^ 0xff)) + 1)

/-- `Int128.BigInt` (u128.go:195-208). -/
def int128BigInt (i : U128) : Int :=
  let buf := i.bytes
  if (buf.headD 0) &&& 0x80 = 0x80 then -(bigSetBytes (twosComplement buf) : Int)
  else (bigSetBytes buf : Int)

/-- `Uint128.String` / `DecimalString` (u128.go:82-89), `Int128.String` (210-212). -/
def U128.string (i : U128) : Bytes := decimalInt i.bigInt

/-- `Int128.DecimalString` (u128.go:214-216). -/
def int128DecimalString (i : U128) : Bytes := decimalInt (int128BigInt i)

/-- `HexString` (u128.go:91-94). -/
def U128.hexString (i : U128) : Bytes := [48, 120] ++ hexEncode i.bytes

/-- `MarshalJSON` of all three types (u128.go:96-98, 218-220, 262-264). -/
def U128.marshalJSON (i : U128) : Bytes := [34] ++ i.string ++ [34]

/-- `unmarshalJSON_decimal` (u128.go:123-141). -/
def U128.unmarshalDecimal (i : U128) (s : Bytes) : Res U128 :=
  match bigSetString s with
  | none => .err .parse
  | some z =>
    match bigFillBytes 16 z with
    | .ok oo =>
      match (readUint128 i.order (Dec.new (reverseBytes oo) .bin)).1 with
      | .ok (lo, hi) => .ok { i with lo := lo, hi := hi }
      | .err e => .err e
      | .panic => .panic
    | .err e => .err e
    | .panic => .panic

/-- `unmarshalJSON_hex` (u128.go:143-164): sixteen characters are eight bytes, so the second `Uint64` is out of range. -/
def U128.unmarshalHex (i : U128) (s : Bytes) : Res U128 :=
  let t := s.drop 2
  if t.length ≠ 16 then .err .parse
  else match hexDecode t with
    | .ok data =>
      match getUint i.order 8 (data.take 8), getUint i.order 8 (data.drop 8) with
      | .ok a, .ok b =>
        match i.order with
        | .le => .ok { i with lo := a, hi := b }
        | .be => .ok { i with lo := b, hi := a }
      | _, _ => .panic
    | .err e => .err e
    | .panic => .panic

/-- `Uint128.UnmarshalJSON` (u128.go:106-121): the receiver's new content. -/
def U128.unmarshalJSON (i : U128) (data : Bytes) : Res U128 :=
  if data = jsonNull then .ok i
  else match jsonString data with
    | .ok s =>
      if s.take 2 = [48, 120] ∨ s.take 2 = [48, 88] then i.unmarshalHex s else i.unmarshalDecimal s
    | .err e => .err e
    | .panic => .panic

/-- `Int128.UnmarshalJSON` (u128.go:222-232), `Float128.UnmarshalJSON` (266-276): through a fresh `Uint128`, whose
`UnmarshalJSON` `json.Unmarshal` calls with the trimmed value. -/
def int128UnmarshalJSON (_old : U128) (data : Bytes) : Res U128 :=
  U128.unmarshalJSON { lo := 0, hi := 0, endianness := none } (trimJson data)

end Verif
