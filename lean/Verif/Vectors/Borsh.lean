import Verif.Vectors.Encoder
/-!
# borsh_test.go

Left out: the fields and values of type `CustomEncoding`, which has its own marshaler (they are in `Vectors/Custom.lean`); the string of 65535 bytes in
`TestStrings`; and `TestBorsh_peculiarEnums` (125-161), which skips itself.  The order in which a decoded map lists its
entries is the order of the input here; Go compares maps regardless of it.
-/
set_option synthInstance.maxSize 1024
namespace Verif.Vectors
open Verif

/-- `OptionalPointerFields` (borsh_test.go:29-34), with `type Arr []string`. -/
def optionalPointerFields : Ty := struct [("Good", u8, ""), ("Arr", .ptr (.slice .str), "bin:\"optional\"")]

/-- `TestOptionWithPointer` (borsh_test.go:36-116): absent; present without elements, decoded as a pointer to a nil slice;
present with one element. -/
example :
    both .borsh optionalPointerFields (.struct [.uint 9, .ptr none]) [9, 0] (.struct [.uint 9, .ptr none]) = true ∧
    both .borsh optionalPointerFields (.struct [.uint 9, .ptr (some (.seq (some [])))]) [9, 1, 0, 0, 0, 0]
      (.struct [.uint 9, .ptr (some (.seq none))]) = true ∧
    both .borsh optionalPointerFields (.struct [.uint 9, .ptr (some (.seq (some [str "foo"])))])
      ([9, 1, 1, 0, 0, 0, 3, 0, 0, 0] ++ s "foo") (.struct [.uint 9, .ptr (some (.seq (some [str "foo"])))]) = true := by
  decide +kernel

/-- `TestBorsh_Encode`, integers (borsh_test.go:163-389), by value and by pointer. -/
example :
    both .borsh i8 (.int 33) [33] (.int 33) = true ∧
    both .borsh i16 (.int 44) [44, 0] (.int 44) = true ∧
    both .borsh i32 (.int 55) [55, 0, 0, 0] (.int 55) = true ∧
    both .borsh i64 (.int 556) [0x2c, 0x2, 0, 0, 0, 0, 0, 0] (.int 556) = true ∧
    marshal .borsh (.ptr i64) (.ptr (some (.int 556))) = (.ok (), [0x2c, 0x2, 0, 0, 0, 0, 0, 0]) ∧
    marshal .borsh (.ptr i8) (.ptr (some (.int 120))) = (.ok (), [120]) ∧
    marshal .borsh (.ptr i64) (.ptr (some (.int 0))) = (.ok (), [0, 0, 0, 0, 0, 0, 0, 0]) ∧
    marshal .borsh (.ptr i8) (.ptr (some (.int 0))) = (.ok (), [0]) ∧
    both .borsh u8 (.uint 33) [33] (.uint 33) = true ∧
    both .borsh u16 (.uint 44) [44, 0] (.uint 44) = true ∧
    both .borsh u32 (.uint 55) [55, 0, 0, 0] (.uint 55) = true ∧
    both .borsh u64 (.uint 556) [0x2c, 0x2, 0, 0, 0, 0, 0, 0] (.uint 556) = true ∧
    marshal .borsh (.ptr u64) (.ptr (some (.uint 556))) = (.ok (), [0x2c, 0x2, 0, 0, 0, 0, 0, 0]) ∧
    marshal .borsh (.ptr u8) (.ptr (some (.uint 120))) = (.ok (), [120]) ∧
    marshal .borsh (.ptr u64) (.ptr (some (.uint 0))) = (.ok (), [0, 0, 0, 0, 0, 0, 0, 0]) ∧
    marshal .borsh (.ptr u8) (.ptr (some (.uint 0))) = (.ok (), [0]) := by
  decide +kernel

/-- `TestBorsh_Encode`, booleans, floats, strings (borsh_test.go:390-587); 1.123 as a `float32` is 0x3f8fbe77. -/
example :
    both .borsh .bool (.bool true) [1] (.bool true) = true ∧
    both .borsh .bool (.bool false) [0] (.bool false) = true ∧
    marshal .borsh (.ptr .bool) (.ptr (some (.bool false))) = (.ok (), [0]) ∧
    marshal .borsh (.ptr .bool) (.ptr (some (.bool true))) = (.ok (), [1]) ∧
    both .borsh .f32 (.float 0x3f8fbe77) [0x77, 0xbe, 0x8f, 0x3f] (.float 0x3f8fbe77) = true ∧
    marshal .borsh (.ptr .f32) (.ptr (some (.float 0x3f8fbe77))) = (.ok (), [0x77, 0xbe, 0x8f, 0x3f]) ∧
    both .borsh .f32 (.float 0) [0, 0, 0, 0] (.float 0) = true ∧
    both .borsh .f64 (.float (float64 "1.123")) [0x2b, 0x87, 0x16, 0xd9, 0xce, 0xf7, 0xf1, 0x3f]
      (.float (float64 "1.123")) = true ∧
    marshal .borsh (.ptr .f64) (.ptr (some (.float (float64 "1.123")))) =
      (.ok (), [0x2b, 0x87, 0x16, 0xd9, 0xce, 0xf7, 0xf1, 0x3f]) ∧
    both .borsh .f64 (.float 0) [0, 0, 0, 0, 0, 0, 0, 0] (.float 0) = true ∧
    both .borsh .str (str "hello world")
      [0xb, 0x0, 0x0, 0x0, 0x68, 0x65, 0x6c, 0x6c, 0x6f, 0x20, 0x77, 0x6f, 0x72, 0x6c, 0x64] (str "hello world") = true ∧
    marshal .borsh (.ptr .str) (.ptr (some (str "hello world"))) = (.ok (), [0xb, 0, 0, 0] ++ s "hello world") ∧
    both .borsh .str (str "") [0, 0, 0, 0] (str "") = true := by
  decide +kernel

/-- `TestBorsh_Encode`, a nil interface and a pointer to one (borsh_test.go:588-604). -/
example : writes .borsh (encodeArg none) = (.ok (), []) ∧ marshal .borsh (.ptr .iface) (.ptr (some .nil)) = (.ok (), []) := by
  decide +kernel

/-- `Struct` and `StructWithPointerFields` (borsh_test.go:1084-1091). -/
def fooBar : Ty := struct [("Foo", .str, ""), ("Bar", u32, "")]
def fooBarPointers : Ty := struct [("Foo", .ptr .str, ""), ("Bar", .ptr u32, "")]

/-- `TestBorsh_Encode`, structs (borsh_test.go:643-748). -/
example :
    both .borsh fooBar (.struct [str "hello", .uint 33]) ([5, 0, 0, 0] ++ s "hello" ++ [33, 0, 0, 0])
      (.struct [str "hello", .uint 33]) = true ∧
    marshal .borsh (.ptr fooBar) (.ptr (some (.struct [str "hello", .uint 33]))) =
      (.ok (), [5, 0, 0, 0] ++ s "hello" ++ [33, 0, 0, 0]) ∧
    both .borsh fooBarPointers (.struct [.ptr (some (str "hello")), .ptr (some (.uint 33))])
      ([5, 0, 0, 0] ++ s "hello" ++ [33, 0, 0, 0]) (.struct [.ptr (some (str "hello")), .ptr (some (.uint 33))]) = true ∧
    marshal .borsh (.ptr fooBarPointers) (.ptr (some (.struct [.ptr (some (str "hello")), .ptr (some (.uint 33))]))) =
      (.ok (), [5, 0, 0, 0] ++ s "hello" ++ [33, 0, 0, 0]) := by
  decide +kernel

/-- `StructWithOptionalFields` (borsh_test.go:1073-1082). -/
def structWithOptionalFields : Ty := struct [
  ("FooRequired", .ptr .str, ""), ("BarRequiredNotSet", .ptr u32, ""), ("FooPointer", .ptr .str, "bin:\"optional\""),
  ("FooPointerNotSet", .ptr .str, "bin:\"optional\""), ("BarPointer", .ptr u32, "bin:\"optional\""),
  ("FooValue", .str, "bin:\"optional\""), ("BarValueNotSet", u32, "bin:\"optional\""), ("Hello", .str, "")]

/-- `TestBorsh_Encode`, optional fields (borsh_test.go:749-829): the required nil pointer comes back as a pointer to zero. -/
example :
    both .borsh structWithOptionalFields
      (.struct [.ptr (some (str "hello")), .ptr none, .ptr (some (str "-world")), .ptr none, .ptr (some (.uint 33)),
        str "hi", .uint 0, str ""])
      ([5, 0, 0, 0] ++ s "hello" ++ [0, 0, 0, 0] ++ [1, 6, 0, 0, 0] ++ s "-world" ++ [0] ++ [1, 33, 0, 0, 0] ++
        [1, 2, 0, 0, 0] ++ s "hi" ++ [0] ++ [0, 0, 0, 0])
      (.struct [.ptr (some (str "hello")), .ptr (some (.uint 0)), .ptr (some (str "-world")), .ptr none, .ptr (some (.uint 33)),
        str "hi", .uint 0, str ""]) = true := by
  decide +kernel

/-- `Foo`, `Bar` and the complex enums (borsh_test.go:1379-1411). -/
def tFoo : Ty := struct [("FooA", i32, ""), ("FooB", .str, "")]
def tBar : Ty := struct [("BarA", i64, ""), ("BarB", .str, "")]
def complexEnum : Ty := struct [("Enum", .borshEnum, "borsh_enum:\"true\""), ("Foo", tFoo, ""), ("Bar", tBar, "")]
def complexEnumPointers : Ty := struct [("Enum", .borshEnum, "borsh_enum:\"true\""), ("Foo", .ptr tFoo, ""), ("Bar", .ptr tBar, "")]
def complexEnumEmpty : Ty := struct [("Enum", .borshEnum, "borsh_enum:\"true\""), ("Foo", .lib .emptyVariant, ""), ("Bar", tBar, "")]
def complexEnumPrimitives : Ty := struct [("Enum", .borshEnum, "borsh_enum:\"true\""), ("Foo", u32, ""), ("Bar", i16, "")]

def vFoo (a : Int) (b : String) : Val := .struct [.int a, str b]
def vBar (a : Int) (b : String) : Val := .struct [.int a, str b]

/-- `StructWithEnum` (borsh_test.go:1049-1071); `Dummy` is a defined type with underlying type `uint8`. -/
def structWithEnum : Ty := struct [
  ("Simple", .uint .w8 true, ""), ("SimplePointer", .ptr (.uint .w8 true), ""),
  ("Complex", complexEnum, ""), ("ComplexNotSet", complexEnum, ""), ("ComplexPtr", .ptr complexEnum, ""),
  ("ComplexPtrNotSet", .ptr complexEnum, ""),
  ("ComplexEmpty", complexEnumEmpty, ""), ("ComplexPrimitives1", complexEnumPrimitives, ""),
  ("ComplexPrimitives2", complexEnumPrimitives, ""),
  ("Complex2", complexEnumPointers, ""), ("Complex2Ptr", .ptr complexEnumPointers, ""),
  ("Complex2PtrOptionalSet", .ptr complexEnumPointers, "bin:\"optional\""), ("Complex2PtrOptionalNotSet", .ptr complexEnumPointers, "bin:\"optional\""),
  ("Map", .map .str u64, ""), ("Slice", .slice fooBar, ""), ("Array", .array 4 fooBar, "")]

/-- The value of the test (borsh_test.go:835-927), with `ComplexPtrNotSet` and the order of the map entries left open. -/
def enumValue (complexPtrNotSet : Option Val) (entries : List (Val × Val)) : Val := .struct [
  .uint 1, .ptr (some (.uint 2)),
  .struct [.uint 1, vFoo 0 "", vBar 99 "this is bar"],
  .struct [.uint 0, vFoo 0 "", vBar 0 ""],
  .ptr (some (.struct [.uint 1, vFoo 0 "", vBar 22 "this is bar from pointer"])),
  .ptr complexPtrNotSet,
  .struct [.uint 0, .struct [], vBar 0 ""],
  .struct [.uint 0, .uint 20, .int 0],
  .struct [.uint 1, .uint 0, .int 11],
  .struct [.uint 1, .ptr none, .ptr (some (vBar 62 "very tested!!!"))],
  .ptr (some (.struct [.uint 1, .ptr none, .ptr (some (vBar 123 "lorem ipsum"))])),
  .ptr (some (.struct [.uint 1, .ptr none, .ptr (some (vBar 32 "very complex"))])),
  .ptr none,
  .map (some entries),
  .seq (some [.struct [str "this is first foo", .uint 97], .struct [str "this is second foo", .uint 98]]),
  .arr [.struct [str "arr 0", .uint 22], .struct [str "arr 1", .uint 23], .struct [str "arr 2", .uint 24],
    .struct [str "arr 3", .uint 25]]]

/-- The bytes of the test (borsh_test.go:931-1031). -/
def enumBytes : Bytes :=
  [1] ++ [2] ++
  [1] ++ [99, 0, 0, 0, 0, 0, 0, 0] ++ [11, 0, 0, 0] ++ s "this is bar" ++
  [0] ++ [0, 0, 0, 0] ++ [0, 0, 0, 0] ++
  [1] ++ [22, 0, 0, 0, 0, 0, 0, 0] ++ [24, 0, 0, 0] ++ s "this is bar from pointer" ++
  [0] ++ [0, 0, 0, 0] ++ [0, 0, 0, 0] ++
  [0] ++
  [0] ++ [20, 0, 0, 0] ++
  [1] ++ [11, 0] ++
  [1] ++ [62, 0, 0, 0, 0, 0, 0, 0] ++ [14, 0, 0, 0] ++ s "very tested!!!" ++
  [1] ++ [123, 0, 0, 0, 0, 0, 0, 0] ++ [11, 0, 0, 0] ++ s "lorem ipsum" ++
  [1] ++ [1] ++ [32, 0, 0, 0, 0, 0, 0, 0] ++ [12, 0, 0, 0] ++ s "very complex" ++
  [0] ++
  [2, 0, 0, 0] ++ [3, 0, 0, 0] ++ s "bar" ++ [46, 0, 0, 0, 0, 0, 0, 0] ++ [3, 0, 0, 0] ++ s "foo" ++ [1, 0, 0, 0, 0, 0, 0, 0] ++
  [2, 0, 0, 0] ++ [17, 0, 0, 0] ++ s "this is first foo" ++ [97, 0, 0, 0] ++ [18, 0, 0, 0] ++ s "this is second foo" ++
    [98, 0, 0, 0] ++
  [5, 0, 0, 0] ++ s "arr 0" ++ [22, 0, 0, 0] ++ [5, 0, 0, 0] ++ s "arr 1" ++ [23, 0, 0, 0] ++
  [5, 0, 0, 0] ++ s "arr 2" ++ [24, 0, 0, 0] ++ [5, 0, 0, 0] ++ s "arr 3" ++ [25, 0, 0, 0]

/-- `TestBorsh_Encode`, enums, maps, slices and arrays in a struct (borsh_test.go:830-1045): whatever the order of the map
entries the bytes are the same; the nil pointer to an enum comes back as its first variant. -/
example :
    both .borsh structWithEnum (enumValue none [(str "foo", .uint 1), (str "bar", .uint 46)]) enumBytes
      (enumValue (some (.struct [.uint 0, vFoo 0 "", vBar 0 ""])) [(str "bar", .uint 46), (str "foo", .uint 1)]) = true ∧
    both .borsh structWithEnum (enumValue none [(str "bar", .uint 46), (str "foo", .uint 1)]) enumBytes
      (enumValue (some (.struct [.uint 0, vFoo 0 "", vBar 0 ""])) [(str "bar", .uint 46), (str "foo", .uint 1)]) = true := by
  decide +kernel

/-- `AA` (borsh_test.go:1093-1121) without its two fields of type `CustomEncoding`. -/
def kitchenSink : Ty := struct [
  ("A", i64, ""), ("B", i32, ""), ("C", .bool, ""), ("D", .ptr .bool, "bin:\"optional\""), ("E", .ptr u64, "bin:\"optional\""),
  ("Map", .map .str .str, ""), ("EmptyMap", .map i64 .str, ""), ("Array", .array 2 i64, ""), ("Optional", .ptr fooBar, "bin:\"optional\""),
  ("Value", fooBar, ""), ("HighValuesInt64", .slice i64, ""), ("HighValuesUint64", .slice u64, ""),
  ("HighValuesFloat64", .slice .f64, "")]

def kitchenSinkValue : Val := .struct [
  .int 1, .int 32, .bool true, .ptr (some (.bool true)), .ptr (some (.uint 25464132585)),
  .map (some [(str "foo", str "bar")]), .map none, .arr [.int 57, .int 88],
  .ptr (some (.struct [str "optional foo", .uint 8888886])), .struct [str "value foo", .uint 7777],
  .seq (some ([2 ^ 7 - 1, 2 ^ 15 - 1, 2 ^ 31 - 1, 2 ^ 63 - 1, -(2 ^ 7 - 1), -(2 ^ 15 - 1), -(2 ^ 31 - 1), -(2 ^ 63 - 1),
    2 ^ 8 - 1, 2 ^ 16 - 1, 2 ^ 32 - 1, -(2 ^ 8 - 1), -(2 ^ 16 - 1), -(2 ^ 32 - 1)].map .int)),
  .seq (some ([2 ^ 7 - 1, 2 ^ 15 - 1, 2 ^ 31 - 1, 2 ^ 63 - 1, 2 ^ 8 - 1, 2 ^ 16 - 1, 2 ^ 32 - 1, 2 ^ 64 - 1].map .uint)),
  .seq (some ([float64 "3.40282346638528859811704183484516925440e+38", float64 "1.79769313486231570814527423731704356798070e+308",
    float64 "-3.40282346638528859811704183484516925440e+38",
    float64 "-1.79769313486231570814527423731704356798070e+308"].map .float))]

/-- `TestBorsh_kitchenSink` (borsh_test.go:1147-1221). -/
example : roundTrips .borsh kitchenSink kitchenSinkValue kitchenSinkValue = true := by decide +kernel

/-- `A` (borsh_test.go:1223-1229), `B` (1249-1262), `C` (1291-1296), `N` (1316-1319). -/
def tA : Ty := struct [("A", i64, ""), ("B", i32, ""), ("C", .bool, ""), ("D", .ptr .bool, ""), ("E", .ptr u64, "")]
def tB : Ty := struct [
  ("I8", i8, ""), ("I16", i16, ""), ("I32", i32, ""), ("I64", i64, ""), ("U8", u8, ""), ("U16", u16, ""), ("U32", u32, ""),
  ("U64", u64, ""), ("F32", .f32, ""), ("F64", .f64, ""), ("unexported", i64, ""), ("Err", .iface, "")]
def tC : Ty := struct [("A3", .array 3 i64, ""), ("S", .slice i64, ""), ("P", .ptr i64, ""), ("M", .map .str .str, "")]

/-- The value of `TestBasic` with this content of the field `unexported`; -231.23 as a `float32` is 0xc3673ae1. -/
def vB (unexported : Int) : Val := .struct [
  .int 12, .int (-1), .int 124, .int 1243, .uint 1, .uint 979, .uint 123124, .uint 1135351135, .float 0xc3673ae1,
  .float (float64 "3121221.232"), .int unexported, .nil]
def vC : Val := .struct [.arr [.int 234, .int (-123), .int 123], .seq (some [.int 21442, .int 421241241, .int 2424]),
  .ptr (some (.int 213)), .map (some [(str "foo", str "bar")])]
def vA : Val := .struct [.int 1, .int 32, .bool true, .ptr (some (.bool true)), .ptr (some (.uint 25464132585))]

/-- `TestSimple`, `TestBasic`, `TestBasicContainer`, `TestNested` (borsh_test.go:1231-1351): the unexported field comes back
as zero. -/
example :
    roundTrips .borsh tA vA vA = true ∧
    roundTrips .borsh tB (vB 333) (vB 0) = true ∧
    roundTrips .borsh tC vC vC = true ∧
    roundTrips .borsh (struct [("B", tB, ""), ("C", tC, "")]) (.struct [vB 0, vC]) (.struct [vB 0, vC]) = true := by
  decide +kernel

/-- `TestSimpleEnum`, `TestComplexEnum` (borsh_test.go:1365-1479). -/
example :
    roundTrips .borsh (struct [("D", .uint .w8 true, "")]) (.struct [.uint 1]) (.struct [.uint 1]) = true ∧
    roundTrips .borsh complexEnum (.struct [.uint 1, vFoo 0 "", vBar 23 "baz"]) (.struct [.uint 1, vFoo 0 "", vBar 23 "baz"]) = true ∧
    roundTrips .borsh complexEnumPointers (.struct [.uint 1, .ptr none, .ptr (some (vBar 99999 "hello world"))])
      (.struct [.uint 1, .ptr none, .ptr (some (vBar 99999 "hello world"))]) = true ∧
    roundTrips .borsh complexEnumEmpty (.struct [.uint 1, .struct [], vBar 23 "baz"]) (.struct [.uint 1, .struct [], vBar 23 "baz"]) = true ∧
    roundTrips .borsh complexEnumPrimitives (.struct [.uint 1, .uint 0, .int 22]) (.struct [.uint 1, .uint 0, .int 22]) = true := by
  decide +kernel

/-- `TestSet` (borsh_test.go:1485-1497): a `map[int64]struct{}`. -/
example :
    roundTrips .borsh (struct [("S", .map i64 (struct []), "")])
      (.struct [.map (some [(.int 124, .struct []), (.int 214, .struct []), (.int 24, .struct []), (.int 53, .struct [])])])
      (.struct [.map (some [(.int 24, .struct []), (.int 53, .struct []), (.int 124, .struct []), (.int 214, .struct [])])]) = true := by
  decide +kernel

/-- `TestSkipped`, `TestEmpty` (borsh_test.go:1505-1536). -/
example :
    roundTrips .borsh (struct [("A", i64, ""), ("B", i64, "borsh_skip:\"true\""), ("C", i64, "")]) (.struct [.int 32, .int 535, .int 123])
      (.struct [.int 32, .int 0, .int 123]) = true ∧
    both .borsh (struct []) (.struct []) [] (.struct []) = true := by
  decide +kernel

/-- `TestStrings` (borsh_test.go:1548-1565). -/
example : ∀ x ∈ [[], s "a", s "hellow world", List.replicate 1024 120, List.replicate 4096 120, s "🎯",
    (List.replicate 1000 (s "hello world!")).flatten],
    roundTrips .borsh .str (.str x) (.str x) = true := by
  decide +kernel

/-- `TestSlices` (borsh_test.go:1575-1594). -/
example :
    roundTrips .borsh (.slice i32) (.seq none) (.seq none) = true ∧
    ∀ x ∈ [(1000000000, 1), (1000000001, 2), (1000000002, 3), (1000000003, 4), (1000000004, 8), (1000000005, 16),
      (1000000006, 32), (1000000007, 64), (1000000008, 65)],
      roundTrips .borsh (.slice i32) (.seq (some (List.replicate x.2 (.int x.1)))) (.seq (some (List.replicate x.2 (.int x.1)))) =
        true := by
  decide +kernel

/-- `TestUint128_old`, `TestCustomType` (borsh_test.go:1596-1655). -/
example :
    roundTrips .borsh (.lib .int128) (.u128 32767 32767 none) (.u128 32767 32767 none) = true ∧
    roundTrips .borsh (struct [("U8", .uint .w8 true, ""), ("U16", .uint .w16 true, ""), ("U32", .uint .w32 true, ""),
        ("U64", .uint .w64 true, ""), ("I8", .int .w8 true, ""), ("I16", .int .w16 true, ""), ("I32", .int .w32 true, ""),
        ("I64", .int .w64 true, "")])
      (.struct [.uint 1, .uint 2, .uint 3, .uint 4, .int 5, .int 6, .int 7, .int 8])
      (.struct [.uint 1, .uint 2, .uint 3, .uint 4, .int 5, .int 6, .int 7, .int 8]) = true := by
  decide +kernel

/-- "a", "b", "c" -/
def abc : Val := .seq (some [str "a", str "b", str "c"])
def abcBytes : Bytes := [3, 0, 0, 0] ++ [1, 0, 0, 0] ++ s "a" ++ [1, 0, 0, 0] ++ s "b" ++ [1, 0, 0, 0] ++ s "c"

/-- `TestStringSlice` (borsh_test.go:1657-1764). -/
example :
    both .borsh (.slice .str) abc abcBytes abc = true ∧
    both .borsh (struct [("A", .slice .str, "")]) (.struct [abc]) abcBytes (.struct [abc]) = true ∧
    both .borsh (struct [("A", .ptr (.slice .str), "bin:\"optional\"")]) (.struct [.ptr (some abc)]) (1 :: abcBytes)
      (.struct [.ptr (some abc)]) = true ∧
    both .borsh (struct [("A", .ptr (.slice .str), "bin:\"optional\"")]) (.struct [.ptr none]) [0] (.struct [.ptr none]) = true := by
  decide +kernel

/-- What the Boolean checks above say: the struct with enums encodes to the bytes of the test, and these decode to the
expected value. -/
example : marshal .borsh structWithEnum (enumValue none [(str "foo", .uint 1), (str "bar", .uint 46)]) = (.ok (), enumBytes) ∧
    unmarshal .borsh structWithEnum structWithEnum.zero enumBytes =
      .ok (enumValue (some (.struct [.uint 0, vFoo 0 "", vBar 0 ""])) [(str "bar", .uint 46), (str "foo", .uint 1)]) :=
  both_iff (by decide +kernel)

end Verif.Vectors
