import Verif.Vectors.Encoder
import Verif.Model.Compact
import Verif.Model.Memory
import Verif.Model.Sighash
import Verif.Model.Sha256
import Verif.Model.Variant
import Verif.Model.U128
import Verif.Props.Cases
/-!
# The other tests of the repository

compact-u16_test.go, u128_test.go, utils_test.go, parse_test.go, heck_test.go, sighash_test.go, variant_test.go and
`Test_Read` of decoder_test.go.  Here the nodes of variant_test.go are decoded one by one; types with their own marshaler,
among them the whole forest, are in `Vectors/Custom.lean`.  Left out: the benchmarks, and the loop of `TestCompactU16` over
all of `uint16`, which C04 and C07 prove.
-/
set_option synthInstance.maxSize 1024
namespace Verif.Vectors
open Verif Verif.Props

/-! compact-u16_test.go -/

/-- `assert_good_deserialized_value` (compact-u16_test.go:157-167). -/
def goodCompact (v : Nat) (b : Bytes) : Bool :=
  decodeCompactU16 b == .ok (v, b.length) && (decodeCompactFromReader b).1 == .ok v

/-- `assert_bad_deserialized_value` (compact-u16_test.go:169-178). -/
def badCompact (b : Bytes) : Bool :=
  (match decodeCompactU16 b with | .err _ => true | _ => false) &&
    (match (decodeCompactFromReader b).1 with | .err _ => true | _ => false)

/-- The candidates of `TestCompactU16` (compact-u16_test.go:25-56). -/
example : ∀ v ∈ ([0, 1, 3, 4, 5, 6, 7, 8, 9, 10, 11, 12, 100, 1000, 10000, 65534, 65535] : List Nat),
    (encodeCompactU16Length [] (v : Nat)).1 = .ok () ∧
    (match decodeCompactU16 ((encodeCompactU16Length [] (v : Nat)).2 ++ s "hello world") with | .ok r => r.1 == v | _ => false) = true ∧
    (decodeCompactFromReader ((encodeCompactU16Length [] (v : Nat)).2 ++ s "hello world")).1 = .ok v := by
  decide +kernel

/-- `TestShortVecEncodeLen` (compact-u16_test.go:147-155). -/
example : ∀ p ∈ [(0x0, [0x0]), (0x7f, [0x7f]), (0x80, [0x80, 0x01]), (0xff, [0xff, 0x01]), (0x100, [0x80, 0x02]),
      (0x7fff, [0xff, 0xff, 0x01]), (0xffff, [0xff, 0xff, 0x03])],
    encodeCompactU16Length [] (p.1 : Nat) = (.ok (), p.2) ∧ goodCompact p.1 p.2 = true := by
  decide +kernel

/-- `TestDeserialize` (compact-u16_test.go:180-223). -/
example :
    (∀ p ∈ [(0x0000, [0x00]), (0x007f, [0x7f]), (0x0080, [0x80, 0x01]), (0x00ff, [0xff, 0x01]), (0x0100, [0x80, 0x02]),
      (0x07ff, [0xff, 0x0f]), (0x3fff, [0xff, 0x7f]), (0x4000, [0x80, 0x80, 0x01]), (0xffff, [0xff, 0xff, 0x03])],
      goodCompact p.1 p.2 = true) ∧
    (∀ b ∈ [[0x80, 0x00], [0x80, 0x80, 0x00], [0xff, 0x00], [0xff, 0x80, 0x00], [0x80, 0x81, 0x00], [0xff, 0x81, 0x00],
      [0x80, 0x82, 0x00], [0xff, 0x8f, 0x00], [0xff, 0xff, 0x00], [], [0x80], [0x80, 0x80, 0x80, 0x00],
      [0x80, 0x80, 0x04], [0x80, 0x80, 0x06]], badCompact b = true) := by
  decide +kernel

/-! u128_test.go, utils_test.go -/

def u128Bytes : Bytes := [51, 47, 223, 255, 255, 255, 255, 255, 30, 12, 0, 0, 0, 0, 0, 0]

/-- `TestUint128` (u128_test.go:11-63): little-endian, big-endian from the reversed bytes, and JSON.  The
test calls `UnmarshalWithDecoder` itself; through `Decode` the receiver's byte order would not count. -/
example :
    isOk (unmarshalLib .uint128 (.u128 0 0 (some .le)) (Dec.new u128Bytes .borsh)).1 (.u128 18446744073707401011 3102 none) =
      true ∧
    isOk (unmarshalLib .uint128 (.u128 0 0 (some .be)) (Dec.new (reverseBytes u128Bytes) .borsh)).1
      (.u128 18446744073707401011 3102 none) = true ∧
    (U128.bigInt ⟨18446744073707401011, 3102, none⟩ = 57240246860720736513843) ∧
    (U128.string ⟨18446744073707401011, 3102, none⟩ = s "57240246860720736513843") ∧
    (match U128.unmarshalJSON ⟨0, 0, none⟩ (s "\"57240246860720736513843\"") with
      | .ok u => u.lo == 18446744073707401011 && u.hi == 3102 && u.marshalJSON == s "\"57240246860720736513843\""
      | _ => false) = true := by
  decide +kernel

/-- `Test_twosComplement` (utils_test.go:23-52). -/
example : twosComplement [] = [0x1] ∧ twosComplement [0x01] = [0xff] ∧
    twosComplement [0xaa, 0xbb, 0xcc] = [0x55, 0x44, 0x34] := by
  decide +kernel

/-! parse_test.go -/

/-- `Test_parseFieldTag` (parse_test.go:25-77). -/
example :
    parseTag (s "") = {} ∧
    parseTag (s "bin:\"-\"") = { skip := true } ∧
    parseTag (s "bin:\"sizeof=Tokens\"") = { sizeOf := s "Tokens" } ∧
    parseTag (s "bin:\"optional\"") = { option := true } ∧
    parseTag (s "bin:\"optional sizeof=Nodes\"") = { option := true, sizeOf := s "Nodes" } := by
  decide +kernel

/-! heck_test.go, sighash_test.go -/

/-- The Unicode tables on ASCII and the other letters of the tests: È è, ì, Σ σ, ﬄ (lower case, without an upper-case
rune). -/
def testUni : Uni :=
  { asciiUni with
    isLetter := fun r => asciiUni.isLetter r || [0xC8, 0xE8, 0xEC, 0x3A3, 0x3C3, 0xFB04].contains r
    isUpper := fun r => asciiUni.isUpper r || [0xC8, 0x3A3].contains r
    isLower := fun r => asciiUni.isLower r || [0xE8, 0xEC, 0x3C3, 0xFB04].contains r
    toLower := fun r => if r = 0xC8 then 0xE8 else if r = 0x3A3 then 0x3C3 else asciiUni.toLower r
    toUpper := fun r => if r = 0xE8 then 0xC8 else if r = 0xEC then 0xCC else if r = 0x3C3 then 0x3A3 else asciiUni.toUpper r }

/-- `TestCamelCase` (heck_test.go:9-75). -/
example : ∀ p ∈ [
    ("hello1World", "Hello1World"), ("Hello1World", "Hello1World"), ("foo", "Foo"), ("foo-bar", "FooBar"),
    ("foo-bar-baz", "FooBarBaz"), ("foo--bar", "FooBar"), ("--foo-bar", "FooBar"), ("--foo--bar", "FooBar"),
    ("FOO-BAR", "FooBar"), ("FOÈ-BAR", "FoèBar"), ("-foo-bar-", "FooBar"), ("--foo--bar--", "FooBar"), ("foo-1", "Foo1"),
    ("foo.bar", "FooBar"), ("foo..bar", "FooBar"), ("..foo..bar..", "FooBar"), ("foo_bar", "FooBar"),
    ("__foo__bar__", "FooBar"), ("foo bar", "FooBar"), ("  foo  bar  ", "FooBar"), ("-", ""), (" - ", ""),
    ("fooBar", "FooBar"), ("fooBar-baz", "FooBarBaz"), ("fooBarBaz-bazzy", "FooBarBazBazzy"), ("FBBazzy", "FbBazzy"),
    ("F", "F"), ("FooBar", "FooBar"), ("Foo", "Foo"), ("FOO", "Foo"), ("--", ""), ("", ""), ("--__--_--_", ""),
    ("foo bar?", "FooBar"), ("foo bar!", "FooBar"), ("foo bar$", "FooBar"), ("foo-bar#", "FooBar"),
    ("XMLHttpRequest", "XmlHttpRequest"), ("AjaxXMLHttpRequest", "AjaxXmlHttpRequest"),
    ("Ajax-XMLHttpRequest", "AjaxXmlHttpRequest"), ("Hello11World", "Hello11World"), ("hello1", "Hello1"),
    ("Hello1", "Hello1"), ("h1W", "H1W")],
    toPascalCase testUni (s p.1) = .ok (s p.2) := by
  decide +kernel

/-- The outcomes noted as "actual" beside the cases commented out (heck_test.go:15-21). -/
example : ∀ p ∈ [
    ("1hello", "1hello"), ("1Hello", "1hello"), ("hello1world", "Hello1world"), ("mGridCol6@md", "MGridCol6Md"), ("A::a", "AA")],
    toPascalCase testUni (s p.1) = .ok (s p.2) := by
  decide +kernel

/-- `TestToSnakeForSighash` (sighash_test.go:118-200). -/
example : ∀ p ∈ [
    ("", ""), ("_id", "id"), ("test", "test"), ("test string", "test_string"), ("Test String", "test_string"),
    ("TestV2", "test_v2"), ("version 1.2.10", "version_1_2_10"), ("version 1.21.0", "version_1_21_0"),
    ("doSomething2", "do_something2"),
    ("CamelCase", "camel_case"), ("This is Human case.", "this_is_human_case"),
    ("MixedUP CamelCase, with some Spaces", "mixed_up_camel_case_with_some_spaces"),
    ("mixed_up_ snake_case with some _spaces", "mixed_up_snake_case_with_some_spaces"), ("kebab-case", "kebab_case"),
    ("SHOUTY_SNAKE_CASE", "shouty_snake_case"), ("snake_case", "snake_case"),
    ("this-contains_ ALLKinds OfWord_Boundaries", "this_contains_all_kinds_of_word_boundaries"),
    ("XΣXΣ baﬄe", "xσxσ_baﬄe"), ("XMLHttpRequest", "xml_http_request"), ("FIELD_NAME11", "field_name11"),
    ("99BOTTLES", "99bottles"), ("FieldNamE11", "field_nam_e11"),
    ("abc123def456", "abc123def456"), ("abc123DEF456", "abc123_def456"), ("abc123Def456", "abc123_def456"),
    ("abc123DEf456", "abc123_d_ef456"), ("ABC123def456", "abc123def456"), ("ABC123DEF456", "abc123def456"),
    ("ABC123Def456", "abc123_def456"), ("ABC123DEf456", "abc123d_ef456"), ("ABC123dEEf456FOO", "abc123d_e_ef456_foo"),
    ("abcDEF", "abc_def"), ("ABcDE", "a_bc_de")],
    toSnakeForSighash testUni (s p.1) = .ok (s p.2) := by
  decide +kernel

/-- `TestSighash` (sighash_test.go:24-116). -/
example : ∀ p ∈ [
    ("hello", [149, 118, 59, 220, 196, 127, 161, 179]), ("serumSwap", [88, 183, 70, 249, 214, 118, 82, 210]),
    ("aldrinV2Swap", [190, 166, 89, 139, 33, 152, 16, 10]), ("raydiumSwapV2", [69, 227, 98, 93, 237, 202, 223, 140])],
    sighashInstruction Sha256.sum testUni (s p.1) = .ok p.2 := by
  decide +kernel
example : sighashAccount Sha256.sum testUni (s "DialectAccount") = .ok [157, 38, 120, 189, 93, 204, 119, 18] := by
  decide +kernel

/-! variant_test.go -/

/-- `TestTypeID` (variant_test.go:29-82). -/
example :
    (typeIDFromSighash (sighash Sha256.sum globalNs (s "hello"))).bytes = sighash Sha256.sum globalNs (s "hello") ∧
    typeIDEqual (typeIDFromSighash (sighash Sha256.sum globalNs (s "hello"))) (sighash Sha256.sum globalNs (s "hello")) = true ∧
    uint32FromTypeID (typeIDFromUint32 66 .le) .le = .ok 66 ∧ (typeIDFromUint32 66 .le).uint32 = .ok 66 ∧
    (match typeIDFromUvarint32 66 with | .ok id => uvarint32FromTypeID id == 66 && id.uvarint32 == 66 | _ => false) = true ∧
    TypeID.bytes (typeIDFromBytes []) = [0, 0, 0, 0, 0, 0, 0, 0] ∧
    TypeID.bytes (typeIDFromBytes [1, 2, 3, 4, 5, 6, 7, 8]) = [1, 2, 3, 4, 5, 6, 7, 8] ∧
    uint8FromTypeID (typeIDFromUint8 33) = 33 ∧ (typeIDFromUint8 33).uint8 = 33 ∧
    typeIDFromSighash (sighash Sha256.sum globalNs (s "hello")) ≠ typeIDFromSighash (sighash Sha256.sum globalNs (s "world")) := by
  decide +kernel

/-- The node types (variant_test.go:95-123). -/
def nodeLeft : Ty := struct [("Key", u32, ""), ("Description", .str, "")]
def nodeRight : Ty := struct [("Owner", u64, ""), ("Padding", .array 2 u8, ""), ("Quantity", .lib .uint64, "")]
def nodeInner : Ty := struct [("Key", .lib .uint128, "")]
def nodeVariantDef : Res VariantDef := newVariantDef Sha256.sum .uint32
  [⟨s "left_node", some (.ptr nodeLeft)⟩, ⟨s "right_node", some (.ptr nodeRight)⟩, ⟨s "inner_node", some (.ptr nodeInner)⟩]

/-- Reading one node from the bytes leaves nothing and gives this id and pointed-to value; writing the id and the value, as
`Node.MarshalWithEncoder` does (variant_test.go:129-135), gives the bytes. -/
def nodeIs (b : Bytes) (id : Nat) (t : Ty) (v : Val) : Bool :=
  match nodeVariantDef with
  | .ok d =>
    (match unmarshalVariant d (Dec.new b .bin) with
      | (.ok x, d1) => x.id == typeIDFromUint32 id .le && d1.remaining == 0 &&
        (match x.impl with
          | some (_, w) => same w (.ptr (some v))
          | none => false)
      | _ => false) &&
    writes .bin (do writeUint32 id .le; encodeArg (some (.ptr t, .ptr (some v)))) == (.ok (), b)
  | _ => false

/-- The nodes of `TestDecode_Variant` and `TestEncode_Variant` (variant_test.go:136-287). -/
example :
    nodeIs [0, 0, 0, 0, 3, 0, 0, 0, 3, 0, 0, 0, 0, 0, 0, 0, 0x61, 0x62, 0x63] 0 nodeLeft (.struct [.uint 3, str "abc"]) = true ∧
    nodeIs [1, 0, 0, 0, 3, 0, 0, 0, 0, 0, 0, 0, 0, 0, 0x0d, 0, 0, 0, 0, 0, 0, 0] 1 nodeRight
      (.struct [.uint 3, .arr [.uint 0, .uint 0], .uint 13]) = true ∧
    nodeIs [1, 0, 0, 0, 0x52, 0, 0, 0, 0, 0, 0, 0, 0, 0, 0x9b, 3, 0, 0, 0, 0, 0, 0] 1 nodeRight
      (.struct [.uint 82, .arr [.uint 0, .uint 0], .uint 923]) = true ∧
    nodeIs [2, 0, 0, 0, 0xff, 0x7f, 0xc6, 0xa4, 0x7e, 0x8d, 3, 0, 0, 0, 0, 0, 0, 0, 0, 0] 2 nodeInner
      (.struct [.u128 999999999999999 0 none]) = true ∧
    nodeIs [2, 0, 0, 0, 0x23, 0xd3, 0xd8, 0x9a, 0x99, 0x7e, 3, 0, 0, 0, 0, 0, 0, 0, 0, 0] 2 nodeInner
      (.struct [.u128 983623123129123 0 none]) = true := by
  decide +kernel

/-- `TestDecode_UnexporterStruct`, `TestEncode_UnexporterStruct` (variant_test.go:289-316). -/
example :
    (match decode (struct [("value", u32, "")]) (.struct [.uint 0]) (Dec.new [5, 0, 0, 0] .bin) with
      | (.ok v, d) => same v (.struct [.uint 0]) && d.remaining == 4
      | _ => false) = true ∧
    marshal .bin (.ptr (struct [("value", u32, "")])) (.ptr (some (.struct [.uint 5]))) = (.ok (), []) := by
  decide +kernel

/-! decoder_test.go -/

def firstTen : Bytes := [123, 99, 88, 77, 66, 55, 44, 33, 22, 11]
def secondTen : Bytes := [1, 2, 3, 4, 5, 6, 7, 8, 9, 10]

/-- `Test_Read` (decoder_test.go:1217-1255): the input is at address 0, the caller's four buffers at 1 to 4. -/
example :
    let m0 : Mem := fun a => if a = 0 then firstTen ++ secondTen else List.replicate ([0, 10, 10, 11, 0].getD a 0) 0
    let d0 : RefDec := { data := ⟨0, 0, 20, 20⟩, pos := 0, cur := none, enc := .bin }
    let (r1, d1, m1) := refRead m0 ⟨1, 0, 10, 10⟩ d0
    let (r2, d2, m2) := refRead m1 ⟨2, 0, 10, 10⟩ d1
    let (r3, d3, m3) := refRead m2 ⟨3, 0, 11, 11⟩ d2
    let (r4, _, m4) := refRead m3 ⟨4, 0, 0, 0⟩ d3
    r1 = .ok () ∧ m1.read ⟨1, 0, 10, 10⟩ = firstTen ∧ r2 = .ok () ∧ m2.read ⟨2, 0, 10, 10⟩ = secondTen ∧
    r3 = .err .shortBuffer ∧ r4 = .ok () ∧ m4.read ⟨4, 0, 0, 0⟩ = [] := by
  decide +kernel

end Verif.Vectors
