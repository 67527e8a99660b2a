import Verif.Vectors.Basic
import Verif.Model.Float
/-!
# encoder_test.go and the struct types of init_test.go

Floating-point literals are given by their bit patterns; the `float64` ones are computed by `parseFloat`.
-/
namespace Verif.Vectors
open Verif

def u8 : Ty := .uint .w8 false
def u16 : Ty := .uint .w16 false
def u32 : Ty := .uint .w32 false
def u64 : Ty := .uint .w64 false
def i8 : Ty := .int .w8 false
def i16 : Ty := .int .w16 false
def i32 : Ty := .int .w32 false
def i64 : Ty := .int .w64 false
def str (x : String) : Val := .str (s x)

/-- The bits of a `float64` literal. -/
def float64 (x : String) : Nat :=
  match parseFloat (s x) with
  | .ok n => n
  | _ => 0

/-- `TestEncoder_Size` (encoder_test.go:32-55). -/
example :
    (encode (.lib .safeString) (str "hello") (Enc.new .bin)).2.written = 6 ∧
    ((do encode (.lib .safeString) (str "hello"); writeBool true : EM Unit) (Enc.new .bin)).2.written = 7 ∧
    (writeByte 123 (Enc.new .borsh)).2.written = 1 ∧
    ((do writeByte 123; writeBool true : EM Unit) (Enc.new .borsh)).2.written = 2 := by
  decide +kernel

/-- `TestEncoder_AliastTestType` (encoder_test.go:57-65): a defined type with underlying type `uint64`. -/
example : marshal .bin (.uint .w64 true) (.uint 23) = (.ok (), [0x17, 0, 0, 0, 0, 0, 0, 0]) := by decide +kernel

/-- `TestEncoder_safeString` (encoder_test.go:67-76). -/
example : marshal .bin (.lib .safeString) (str "hello") = (.ok (), [0x5, 0x68, 0x65, 0x6c, 0x6c, 0x6f]) := by decide +kernel

/-- `TestEncoder_int8` (encoder_test.go:78-90). -/
example : writes .bin (do writeByte (UInt8.ofNat (toUnsigned 8 (-99))); writeByte 100) = (.ok (), [0x9d, 0x64]) := by
  decide +kernel

/-- `TestEncoder_int16` (encoder_test.go:92-116). -/
example :
    writes .bin (do writeInt16 (-82) .le; writeInt16 73 .le) = (.ok (), [0xae, 0xff, 0x49, 0x00]) ∧
    writes .bin (do writeInt16 (-82) .be; writeInt16 73 .be) = (.ok (), [0xff, 0xae, 0x00, 0x49]) := by
  decide +kernel

/-- `TestEncoder_int32` (encoder_test.go:118-142). -/
example :
    writes .bin (do writeInt32 (-276132392) .le; writeInt32 237391 .le) =
      (.ok (), [0xd8, 0x8d, 0x8a, 0xef, 0x4f, 0x9f, 0x3, 0x00]) ∧
    writes .bin (do writeInt32 (-276132392) .be; writeInt32 237391 .be) =
      (.ok (), [0xef, 0x8a, 0x8d, 0xd8, 0x00, 0x3, 0x9f, 0x4f]) := by
  decide +kernel

/-- `TestEncoder_int64` (encoder_test.go:144-168). -/
example :
    writes .bin (do writeInt64 (-819823) .le; writeInt64 72931 .le) =
      (.ok (), [0x91, 0x7d, 0xf3, 0xff, 0xff, 0xff, 0xff, 0xff, 0xe3, 0x1c, 0x1, 0x00, 0x00, 0x00, 0x00, 0x00]) ∧
    writes .bin (do writeInt64 (-819823) .be; writeInt64 72931 .be) =
      (.ok (), [0xff, 0xff, 0xff, 0xff, 0xff, 0xf3, 0x7d, 0x91, 0x00, 0x00, 0x00, 0x00, 0x00, 0x1, 0x1c, 0xe3]) := by
  decide +kernel

/-- `TestEncoder_uint8`, `TestEncoder_uint16`, `TestEncoder_uint32`, `TestEncoder_uint64` (encoder_test.go:170-259). -/
example :
    writes .bin (do writeByte 99; writeByte 100) = (.ok (), [0x63, 0x64]) ∧
    writes .bin (do writeUint16 82 .le; writeUint16 73 .le) = (.ok (), [0x52, 0x00, 0x49, 0x00]) ∧
    writes .bin (do writeUint16 82 .be; writeUint16 73 .be) = (.ok (), [0x00, 0x52, 0x00, 0x49]) ∧
    writes .bin (do writeUint32 276132392 .le; writeUint32 237391 .le) =
      (.ok (), [0x28, 0x72, 0x75, 0x10, 0x4f, 0x9f, 0x03, 0x00]) ∧
    writes .bin (do writeUint32 276132392 .be; writeUint32 237391 .be) =
      (.ok (), [0x10, 0x75, 0x72, 0x28, 0x00, 0x03, 0x9f, 0x4f]) ∧
    writes .bin (do writeUint64 819823 .le; writeUint64 72931 .le) =
      (.ok (), [0x6f, 0x82, 0x0c, 0x00, 0x00, 0x00, 0x00, 0x00, 0xe3, 0x1c, 0x1, 0x00, 0x00, 0x00, 0x00, 0x00]) ∧
    writes .bin (do writeUint64 819823 .be; writeUint64 72931 .be) =
      (.ok (), [0x00, 0x00, 0x00, 0x00, 0x00, 0x0c, 0x82, 0x6f, 0x00, 0x00, 0x00, 0x00, 0x00, 0x1, 0x1c, 0xe3]) := by
  decide +kernel

/-- `TestEncoder_float32` (encoder_test.go:261-284), the literals 1.32 and -3.21. -/
example :
    writes .bin (do writeFloat32 0x3fa8f5c3 .le; writeFloat32 0xc04d70a4 .le) =
      (.ok (), [0xc3, 0xf5, 0xa8, 0x3f, 0xa4, 0x70, 0x4d, 0xc0]) ∧
    writes .bin (do writeFloat32 0x3fa8f5c3 .be; writeFloat32 0xc04d70a4 .be) =
      (.ok (), [0x3f, 0xa8, 0xf5, 0xc3, 0xc0, 0x4d, 0x70, 0xa4]) := by
  decide +kernel

/-- `TestEncoder_float64` (encoder_test.go:286-318). -/
example :
    writes .bin (do
      writeFloat64 (float64 "-62.23") .le; writeFloat64 (float64 "23.239") .le
      writeFloat64 (float64 "+Inf") .le; writeFloat64 (float64 "-Inf") .le) =
      (.ok (), [0x3d, 0x0a, 0xd7, 0xa3, 0x70, 0x1d, 0x4f, 0xc0, 0x77, 0xbe, 0x9f, 0x1a, 0x2f, 0x3d, 0x37, 0x40,
        0x00, 0x00, 0x00, 0x00, 0x00, 0x00, 0xf0, 0x7f, 0x00, 0x00, 0x00, 0x00, 0x00, 0x00, 0xf0, 0xff]) ∧
    writes .bin (do
      writeFloat64 (float64 "-62.23") .be; writeFloat64 (float64 "23.239") .be
      writeFloat64 (float64 "+Inf") .be; writeFloat64 (float64 "-Inf") .be) =
      (.ok (), [0xc0, 0x4f, 0x1d, 0x70, 0xa3, 0xd7, 0x0a, 0x3d, 0x40, 0x37, 0x3d, 0x2f, 0x1a, 0x9f, 0xbe, 0x77,
        0x7f, 0xf0, 0x00, 0x00, 0x00, 0x00, 0x00, 0x00, 0xff, 0xf0, 0x00, 0x00, 0x00, 0x00, 0x00, 0x00]) := by
  decide +kernel

/-- `TestEncoder_string`, `TestEncoder_byte`, `TestEncoder_bool`, `TestEncoder_ByteArray`, `TestEncode_Array`
(encoder_test.go:320-393). -/
example :
    writes .bin (do writeString (s "123"); writeString []; writeString (s "abc")) =
      (.ok (), [0x03, 0x31, 0x32, 0x33, 0x00, 0x03, 0x61, 0x62, 0x63]) ∧
    writes .bin (do writeByte 0; writeByte 1) = (.ok (), [0, 1]) ∧
    writes .bin (do writeBool true; writeBool false) = (.ok (), [1, 0]) ∧
    writes .bin (do writeBytes [1, 2, 3] true; writeBytes [4, 5, 6] true; writeBytes [7, 8] false) =
      (.ok (), [3, 1, 2, 3, 3, 4, 5, 6, 7, 8]) ∧
    marshal .bin (.slice u8) (.seq (some [.uint 1, .uint 2, .uint 3])) = (.ok (), [3, 1, 2, 3]) ∧
    marshal .bin (.array 3 u8) (.arr [.uint 1, .uint 2, .uint 4]) = (.ok (), [1, 2, 4]) := by
  decide +kernel

/-- `Test_OptionalPointerToPrimitiveType` (encoder_test.go:395-416). -/
example :
    marshal .bin (struct [("ID", .ptr (.lib .uint64), "bin:\"optional\"")]) (.struct [.ptr none]) = (.ok (), [0, 0, 0, 0]) ∧
    marshal .bin (struct [("ID", .ptr (.lib .uint64), "bin:\"optional\"")]) (.struct [.ptr (some (.uint 0))]) =
      (.ok (), [1, 0, 0, 0, 0, 0, 0, 0, 0, 0, 0, 0]) ∧
    marshal .bin (struct [("ID", .ptr (.lib .uint64), "bin:\"optional\"")]) (.struct [.ptr (some (.uint 10))]) =
      (.ok (), [1, 0, 0, 0, 0xa, 0, 0, 0, 0, 0, 0, 0]) := by
  decide +kernel

/-- `TestEncoder_Uint128` (encoder_test.go:418-445). -/
example :
    writes .bin (writeUint128 7 9 .le) = (.ok (), [7, 0, 0, 0, 0, 0, 0, 0, 9, 0, 0, 0, 0, 0, 0, 0]) ∧
    writes .bin (writeUint128 7 9 .be) = (.ok (), [0, 0, 0, 0, 0, 0, 0, 9, 0, 0, 0, 0, 0, 0, 0, 7]) := by
  decide +kernel

/-- `binaryTestStruct` (init_test.go:25-50). -/
def binaryTestStruct : Ty := struct [
  ("F1", .str, ""), ("F2", i16, ""), ("F3", u16, ""), ("F4", i32, ""), ("F5", u32, ""), ("F6", i64, ""), ("F7", u64, ""),
  ("F8", .f32, ""), ("F9", .f64, ""), ("F10", .slice .str, ""), ("F11", .array 2 .str, ""), ("F12", u8, ""),
  ("F13", .slice u8, ""), ("F14", .bool, ""), ("F15", .lib .int64, ""), ("F16", .lib .uint64, ""),
  ("F17", .lib .jsonFloat64, ""), ("F18", .lib .uint128, ""), ("F19", .lib .int128, ""), ("F20", .lib .float128, ""),
  ("F21", .lib .varuint32, ""), ("F22", .lib .varint32, ""), ("F23", .lib .bool, ""), ("F24", .lib .hexBytes, "")]

/-- The value of `TestEncoder_BinaryStruct` (encoder_test.go:448-483); -23.13 as a `float32` is 0xc1b90a3d. -/
def binaryTestValue : Val := .struct [
  str "abc", .int (-75), .uint 99, .int (-231), .uint 999, .int (-13231), .uint 99999, .float 0xc1b90a3d,
  .float (float64 "3.92"), .seq (some [str "def", str "789"]), .arr [str "foo", str "bar"], .uint 0xff,
  .seq (some [.uint 1, .uint 2, .uint 3, .uint 4, .uint 5]), .bool true, .int (-23), .uint 23, .float (float64 "3.14"),
  .u128 10 82 none, .u128 7 3 none, .u128 10 82 none, .uint 999, .int (-999), .bool true, .bytes (some [1, 2, 3, 4, 5])]

def binaryTestBytes : Bytes := hex
  "0300000000000000616263b5ff630019ffffffe703000051ccffffffffffff9f860100000000003d0ab9c15c8fc2f5285c0f4002030000000000000064656603000000000000003738390300000000000000666f6f0300000000000000626172ff05010203040501e9ffffffffffffff17000000000000001f85eb51b81e09400a000000000000005200000000000000070000000000000003000000000000000a000000000000005200000000000000e707cd0f01050102030405"

/-- `TestEncoder_BinaryStruct` (encoder_test.go:447-493): `Encode` gets a pointer. -/
example : marshal .bin (.ptr binaryTestStruct) (.ptr (some binaryTestValue)) = (.ok (), binaryTestBytes) := by decide +kernel

/-- `binaryTestStructWithTags` (init_test.go:52-65). -/
def binaryTestStructWithTags : Ty := struct [
  ("F1", .str, "bin:\"-\""), ("F2", i16, "bin:\"big\""), ("F3", u16, "bin:\"big\""), ("F4", i32, "bin:\"big\""),
  ("F5", u32, "bin:\"big\""), ("F6", i64, "bin:\"big\""), ("F7", u64, "bin:\"big\""), ("F8", .f32, "bin:\"big\""),
  ("F9", .f64, "bin:\"big\""), ("F10", .bool, ""), ("F11", .ptr (.lib .int64), "bin:\"optional\""),
  ("F12", .ptr (.slice i64), "bin:\"optional\"")]

/-- `TestEncoder_BinaryTestStructWithTags` (encoder_test.go:495-633), by `Encode` and by the single calls. -/
example :
    marshal .bin (.ptr binaryTestStructWithTags) (.ptr (some (.struct [str "abc", .int (-75), .uint 99, .int (-231), .uint 999,
      .int (-13231), .uint 99999, .float 0xc1b90a3d, .float (float64 "3.92"), .bool true, .ptr none,
      .ptr (some (.seq (some [.int 99, .int 33])))]))) =
    (.ok (), [255, 181, 0, 99, 255, 255, 255, 25, 0, 0, 3, 231, 255, 255, 255, 255, 255, 255, 204, 81, 0, 0, 0, 0, 0, 1, 134, 159,
      193, 185, 10, 61, 64, 15, 92, 40, 245, 194, 143, 92, 1, 0, 0, 0, 0, 1, 0, 0, 0, 2, 99, 0, 0, 0, 0, 0, 0, 0,
      33, 0, 0, 0, 0, 0, 0, 0]) ∧
    writes .bin (do
      writeInt16 (-75) .be; writeUint16 99 .be; writeInt32 (-231) .be; writeUint32 999 .be; writeInt64 (-13231) .be
      writeUint64 99999 .be; writeFloat32 0xc1b90a3d .be; writeFloat64 (float64 "3.92") .be; writeBool true
      writeUint32 0 .le; writeUint32 1 .le; writeUVarInt 2; writeInt64 99 .le; writeInt64 33 .le) =
    (.ok (), [255, 181, 0, 99, 255, 255, 255, 25, 0, 0, 3, 231, 255, 255, 255, 255, 255, 255, 204, 81, 0, 0, 0, 0, 0, 1, 134, 159,
      193, 185, 10, 61, 64, 15, 92, 40, 245, 194, 143, 92, 1, 0, 0, 0, 0, 1, 0, 0, 0, 2, 99, 0, 0, 0, 0, 0, 0, 0,
      33, 0, 0, 0, 0, 0, 0, 0]) := by
  decide +kernel

/-- `TestEncoder_InterfaceNil` (encoder_test.go:635-642). -/
example : writes .bin (encodeArg none) = (.ok (), []) := by decide +kernel

/-- 1, 2, 3 -/
def oneTwoThree : List Val := [.uint 1, .uint 2, .uint 3]

/-- `TestByteArrays` and `TestUintArrays` (encoder_test.go:644-750). -/
example : ∀ e ∈ [Encoding.bin, .borsh],
    marshal e (.array 3 u8) (.arr oneTwoThree) = (.ok (), [1, 2, 3]) ∧
    marshal e (.array 3 u16) (.arr oneTwoThree) = (.ok (), [1, 0, 2, 0, 3, 0]) ∧
    marshal e (.array 3 u32) (.arr oneTwoThree) = (.ok (), [1, 0, 0, 0, 2, 0, 0, 0, 3, 0, 0, 0]) ∧
    marshal e (.array 3 u64) (.arr oneTwoThree) =
      (.ok (), [1, 0, 0, 0, 0, 0, 0, 0, 2, 0, 0, 0, 0, 0, 0, 0, 3, 0, 0, 0, 0, 0, 0, 0]) := by
  decide +kernel

/-- `TestUintSlices` (encoder_test.go:752-870): the length is one byte in Bin, four in Borsh. -/
example : ∀ e ∈ [(Encoding.bin, [(3 : UInt8)]), (.borsh, [3, 0, 0, 0])],
    marshal e.1 (.slice u8) (.seq (some oneTwoThree)) = (.ok (), e.2 ++ [1, 2, 3]) ∧
    marshal e.1 (.slice u16) (.seq (some oneTwoThree)) = (.ok (), e.2 ++ [1, 0, 2, 0, 3, 0]) ∧
    marshal e.1 (.slice u32) (.seq (some oneTwoThree)) = (.ok (), e.2 ++ [1, 0, 0, 0, 2, 0, 0, 0, 3, 0, 0, 0]) ∧
    marshal e.1 (.slice u64) (.seq (some oneTwoThree)) =
      (.ok (), e.2 ++ [1, 0, 0, 0, 0, 0, 0, 0, 2, 0, 0, 0, 0, 0, 0, 0, 3, 0, 0, 0, 0, 0, 0, 0]) := by
  decide +kernel

/-- The numbers 1 … n. -/
def upTo (n : Nat) : List Nat := (List.range n).map (· + 1)

/-- `Test_writeArrayOfBytes`, `Test_writeArrayOfUint16`, `Test_writeArrayOfUint32`, `Test_writeArrayOfUint64`
(encoder_test.go:872-1274), with 3, 10, 32 and 64 elements. -/
example : ∀ e ∈ [Encoding.bin, .borsh],
    writes e (writeUints 32 .w8 ((upTo 32).map .uint)) = (.ok (), (upTo 32).map UInt8.ofNat) ∧
    writes e (writeUints 3 .w16 oneTwoThree) = (.ok (), [1, 0, 2, 0, 3, 0]) ∧
    writes e (writeUints 32 .w32 ((upTo 32).map .uint)) = (.ok (), ((upTo 32).map fun n => [UInt8.ofNat n, 0, 0, 0]).flatten) ∧
    writes e (writeUints 64 .w64 ((upTo 64).map .uint)) =
      (.ok (), ((upTo 64).map fun n => [UInt8.ofNat n, 0, 0, 0, 0, 0, 0, 0]).flatten) := by
  decide +kernel

end Verif.Vectors
