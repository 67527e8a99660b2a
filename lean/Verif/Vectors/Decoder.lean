import Verif.Vectors.Encoder
/-!
# decoder_test.go
-/
set_option synthInstance.maxSize 1024
namespace Verif.Vectors
open Verif

/-- `TestDecoder_Peek` (decoder_test.go:31-71). -/
example :
    reads .bin [0x17, 0, 0, 0, 0, 0, 0, 0] (do
      let a ← peek 8; let b ← peek 8; let c ← peek 1; let d ← peek 2; let r ← readByte; let f ← peek 1
      pure (a, b, c, d, r, f)) =
    (.ok ([0x17, 0, 0, 0, 0, 0, 0, 0], [0x17, 0, 0, 0, 0, 0, 0, 0], [0x17], [0x17, 0], 0x17, [0]), 7) := by
  decide +kernel

/-- `TestDecoder_AliastTestType` (decoder_test.go:73-82). -/
example : unmarshal .bin (.uint .w64 true) (.uint 0) [0x17, 0, 0, 0, 0, 0, 0, 0] = .ok (.uint 23) := ok_of (by decide +kernel)

/-- Two values read by the same method, and the bytes left after each. -/
def twice {α : Type} (m : DM α) : DM (α × Int × α) := do
  let a ← m
  let d ← M.get
  let b ← m
  pure (a, d.remaining, b)

/-- `TestDecoder_Remaining`, `TestDecoder_int8`, `TestDecoder_int16`, `TestDecoder_int32`, `TestDecoder_int64`,
`TestDecoder_Int64` (decoder_test.go:84-233, 615-651). -/
example :
    reads .bin [1, 0, 2, 0] (twice (readUint16 .le)) = (.ok (1, 2, 2), 0) ∧
    reads .bin [0x9d, 0x64] (twice readInt8) = (.ok (-99, 1, 100), 0) ∧
    reads .bin [0xae, 0xff, 0x49, 0x00] (twice (readInt16 .le)) = (.ok (-82, 2, 73), 0) ∧
    reads .bin [0xff, 0xae, 0x00, 0x49] (twice (readInt16 .be)) = (.ok (-82, 2, 73), 0) ∧
    reads .bin [0xd8, 0x8d, 0x8a, 0xef, 0x4f, 0x9f, 0x3, 0x00] (twice (readInt32 .le)) = (.ok (-276132392, 4, 237391), 0) ∧
    reads .bin [0xef, 0x8a, 0x8d, 0xd8, 0x00, 0x3, 0x9f, 0x4f] (twice (readInt32 .be)) = (.ok (-276132392, 4, 237391), 0) ∧
    reads .bin [0x91, 0x7d, 0xf3, 0xff, 0xff, 0xff, 0xff, 0xff, 0xe3, 0x1c, 0x1, 0x00, 0x00, 0x00, 0x00, 0x00]
      (twice (readInt64 .le)) = (.ok (-819823, 8, 72931), 0) ∧
    reads .bin [0xff, 0xff, 0xff, 0xff, 0xff, 0xf3, 0x7d, 0x91, 0x00, 0x00, 0x00, 0x00, 0x00, 0x1, 0x1c, 0xe3]
      (twice (readInt64 .be)) = (.ok (-819823, 8, 72931), 0) := by
  decide +kernel

/-- `TestDecoder_uint8`, `TestDecoder_uint16`, `TestDecoder_uint32`, `TestDecoder_uint64` (decoder_test.go:235-366). -/
example :
    reads .bin [0x63, 0x64] (twice readUint8) = (.ok (99, 1, 100), 0) ∧
    reads .bin [0x52, 0x00, 0x49, 0x00] (twice (readUint16 .le)) = (.ok (82, 2, 73), 0) ∧
    reads .bin [0x00, 0x52, 0x00, 0x49] (twice (readUint16 .be)) = (.ok (82, 2, 73), 0) ∧
    reads .bin [0x28, 0x72, 0x75, 0x10, 0x4f, 0x9f, 0x03, 0x00] (twice (readUint32 .le)) = (.ok (276132392, 4, 237391), 0) ∧
    reads .bin [0x10, 0x75, 0x72, 0x28, 0x00, 0x03, 0x9f, 0x4f] (twice (readUint32 .be)) = (.ok (276132392, 4, 237391), 0) ∧
    reads .bin [0x6f, 0x82, 0x0c, 0x00, 0x00, 0x00, 0x00, 0x00, 0xe3, 0x1c, 0x1, 0x00, 0x00, 0x00, 0x00, 0x00]
      (twice (readUint64 .le)) = (.ok (819823, 8, 72931), 0) ∧
    reads .bin [0x00, 0x00, 0x00, 0x00, 0x00, 0x0c, 0x82, 0x6f, 0x00, 0x00, 0x00, 0x00, 0x00, 0x1, 0x1c, 0xe3]
      (twice (readUint64 .be)) = (.ok (819823, 8, 72931), 0) := by
  decide +kernel

/-- `TestDecoder_float32` (decoder_test.go:368-404), the literals 1.32 and -3.21. -/
example :
    reads .bin [0xc3, 0xf5, 0xa8, 0x3f, 0xa4, 0x70, 0x4d, 0xc0] (twice (readFloat32 .le)) = (.ok (0x3fa8f5c3, 4, 0xc04d70a4), 0) ∧
    reads .bin [0x3f, 0xa8, 0xf5, 0xc3, 0xc0, 0x4d, 0x70, 0xa4] (twice (readFloat32 .be)) = (.ok (0x3fa8f5c3, 4, 0xc04d70a4), 0) := by
  decide +kernel

/-- `TestDecoder_float64` (decoder_test.go:406-476): -62.23, 23.239, the infinities and a NaN, which Bin accepts. -/
example :
    reads .bin [0x3d, 0x0a, 0xd7, 0xa3, 0x70, 0x1d, 0x4f, 0xc0, 0x77, 0xbe, 0x9f, 0x1a, 0x2f, 0x3d, 0x37, 0x40,
      0x00, 0x00, 0x00, 0x00, 0x00, 0x00, 0xf0, 0x7f, 0x00, 0x00, 0x00, 0x00, 0x00, 0x00, 0xf0, 0xff,
      0x01, 0x00, 0x00, 0x00, 0x00, 0x00, 0xf8, 0x7f] (do
        let a ← twice (readFloat64 .le); let b ← twice (readFloat64 .le); let n ← readFloat64 .le
        pure (a, b, isNaN64 n)) =
      (.ok ((float64 "-62.23", 32, float64 "23.239"), (float64 "+Inf", 16, float64 "-Inf"), true), 0) ∧
    reads .bin [0xc0, 0x4f, 0x1d, 0x70, 0xa3, 0xd7, 0x0a, 0x3d, 0x40, 0x37, 0x3d, 0x2f, 0x1a, 0x9f, 0xbe, 0x77,
      0x7f, 0xf0, 0x00, 0x00, 0x00, 0x00, 0x00, 0x00, 0xff, 0xf0, 0x00, 0x00, 0x00, 0x00, 0x00, 0x00,
      0x7f, 0xf8, 0x00, 0x00, 0x00, 0x00, 0x00, 0x01] (do
        let a ← twice (readFloat64 .be); let b ← twice (readFloat64 .be); let n ← readFloat64 .be
        pure (a, b, isNaN64 n)) =
      (.ok ((float64 "-62.23", 32, float64 "23.239"), (float64 "+Inf", 16, float64 "-Inf"), true), 0) := by
  decide +kernel

/-- `TestDecoder_string`, `TestDecoder_Byte`, `TestDecoder_Bool`, `TestDecoder_ByteArray`
(decoder_test.go:478-501, 516-568). -/
example :
    reads .bin [0x03, 0x31, 0x32, 0x33, 0x00, 0x03, 0x61, 0x62, 0x63] (do let a ← twice readString; let b ← readString; pure (a, b)) =
      (.ok ((s "123", 5, []), s "abc"), 0) ∧
    reads .bin [0, 1] (twice readByte) = (.ok (0, 1, 1), 0) ∧
    reads .bin [1, 0] (twice readBool) = (.ok (true, 1, false), 0) ∧
    reads .bin [3, 1, 2, 3, 3, 4, 5, 6] (twice readByteSlice) = (.ok ([1, 2, 3], 4, [4, 5, 6]), 0) := by
  decide +kernel

/-- `TestDecoder_Decode_String_Err` (decoder_test.go:503-514): "decode: uint64 required [8] bytes, remaining [5]". -/
example : ∀ old, unmarshal .bin .str old [1, 0, 0, 0, 97] = .err .notEnough := fun _ => rfl

/-- `TestDecoder_ByteArray_MissingData` (decoder_test.go:570-579): "byte array: varlen=10, missing 10 bytes". -/
example : (reads .bin [0x0a] readByteSlice).1 = .err .notEnough := by decide +kernel

/-- `TestDecoder_Array` (decoder_test.go:581-589). -/
example : unmarshal .bin (.array 3 u8) (.arr [.uint 0, .uint 0, .uint 0]) [1, 2, 4] = .ok (.arr [.uint 1, .uint 2, .uint 4]) :=
  ok_of (by decide +kernel)

/-- `TestDecoder_Slice_Err` and `TestDecoder_Slice_InvalidLen` (decoder_test.go:591-613): `ErrVarIntBufferSize` without a
length, "unexpected EOF" without elements or for a length beyond the bounds. -/
example :
    unmarshal .bin (.slice .str) (.seq none) [] = .err .varint ∧
    unmarshal .bin (.slice .str) (.seq none) [1] = .err .eof ∧
    unmarshal .bin (.slice .str) (.seq none) [0xd7, 0xff, 0xff, 0xff, 0xff, 0xff, 0xff, 0xff, 0xff, 0x01] = .err .eof :=
  ⟨rfl, rfl, rfl⟩

/-- `TestDecoder_Uint128_2` (decoder_test.go:653-677), `Lo` first. -/
example :
    (reads .bin [0x0d, 0x88, 0xd3, 0xff, 0xff, 0xff, 0xff, 0xff, 0x6d, 0x0b, 0, 0, 0, 0, 0, 0] (readUint128 .le)).1 =
      .ok (0xffffffffffd3880d, 0xb6d) ∧
    (reads .bin [0, 0, 0, 0, 0, 0, 0x08, 0xbb, 0xff, 0xff, 0xff, 0xff, 0xff, 0xac, 0xdc, 0xad] (readUint128 .be)).1 =
      .ok (0xffffffffffacdcad, 0x8bb) := by
  decide +kernel

/-- `TestDecoder_BinaryStruct` (decoder_test.go:679-720). -/
example : unmarshal .bin binaryTestStruct binaryTestStruct.zero binaryTestBytes = .ok binaryTestValue := ok_of (by decide +kernel)

/-- `TestDecoder_Decode_No_Ptr` (decoder_test.go:722-726). -/
example : ((decodeArg .nonPtr) (Dec.new [] .bin)).1 = .err .invalidDecoder := rfl

/-- `TestDecoder_BinaryTestStructWithTags` (decoder_test.go:728-748). -/
example :
    unmarshal .bin binaryTestStructWithTags binaryTestStructWithTags.zero
      (hex "ffb50063ffffff19000003e7ffffffffffffcc51000000000001869fc1b90a3d400f5c28f5c28f5c010000000000000000") =
    .ok (.struct [str "", .int (-75), .uint 99, .int (-231), .uint 999, .int (-13231), .uint 99999, .float 0xc1b90a3d,
      .float (float64 "3.92"), .bool true, .ptr none, .ptr none]) :=
  ok_of (by decide +kernel)

/-- Run a call and go on whatever its outcome, recording whether it succeeded and how many bytes are left. -/
def outcome (m : DM Unit) : DM (Bool × Int) := fun d =>
  (.ok ((m d).1 == .ok (), (m d).2.remaining), (m d).2)

/-- `TestDecoder_SkipBytes` (decoder_test.go:750-767). -/
example :
    reads .bin (List.replicate 8 0xff) (do
      let a ← outcome (skipBytes 1); let b ← outcome (skipBytes 2); let c ← outcome (skipBytes 6); let d ← outcome (skipBytes 5)
      pure [a, b, c, d]) =
    (.ok [(true, 7), (true, 5), (false, 5), (true, 0)], 0) := by
  decide +kernel

/-- `Test_Discard` (decoder_test.go:769-778). -/
example :
    reads .bin [0, 1, 2, 3, 4, 5, 6, 7, 8, 9] (do discard 5; let d ← M.get; peek d.remaining) = (.ok [5, 6, 7, 8, 9], 5) := by
  decide +kernel

/-- 0 … 7 as values, and as numbers of `k` bytes. -/
def eight : List Val := (List.range 8).map .uint
def eightBytes (k : Nat) : Bytes := ((List.range 8).map fun n => putUint .le k n).flatten

/-- The values read, compared by `same`. -/
def readsValues (e : Encoding) (b : Bytes) (m : DM (List Val)) (xs : List Val) : Bool :=
  match (m (Dec.new b e)).1 with
  | .ok ys => sames ys xs
  | _ => false

/-- `Test_reflect_readArrayOfBytes`, `…Uint16`, `…Uint32`, `…Uint64`, `…Uint` (decoder_test.go:780-1100). -/
example : ∀ e ∈ [Encoding.bin, .borsh], ∀ w ∈ [Width.w8, .w16, .w32, .w64],
    readsValues e (eightBytes w.bytes) (readUints 8 w) eight = true := by
  decide +kernel

/-- `Test_Decode_custom` (decoder_test.go:1102-1175): defined element types. -/
example :
    unmarshal .bin (.slice (.uint .w32 true)) (.seq (some [])) [3, 0, 0, 0, 0, 1, 0, 0, 0, 2, 0, 0, 0] =
      .ok (.seq (some [.uint 0, .uint 1, .uint 2])) ∧
    unmarshal .bin (.array 3 (.uint .w32 true)) (.arr [.uint 0, .uint 0, .uint 0]) [0, 0, 0, 0, 1, 0, 0, 0, 2, 0, 0, 0] =
      .ok (.arr [.uint 0, .uint 1, .uint 2]) ∧
    unmarshal .bin (.slice u32) (.seq (some [])) [3, 0, 0, 0, 0, 1, 0, 0, 0, 2, 0, 0, 0] =
      .ok (.seq (some [.uint 0, .uint 1, .uint 2])) ∧
    unmarshal .bin (.array 3 u32) (.arr [.uint 0, .uint 0, .uint 0]) [0, 0, 0, 0, 1, 0, 0, 0, 2, 0, 0, 0] =
      .ok (.arr [.uint 0, .uint 1, .uint 2]) :=
  ⟨ok_of (by decide +kernel), ok_of (by decide +kernel), ok_of (by decide +kernel), ok_of (by decide +kernel)⟩

/-- `Test_ReadNBytes`, `Test_ReadBytes` (decoder_test.go:1177-1215; `ReadBytes` is `ReadNBytes`, decoder.go:328-330). -/
example :
    reads .bin [123, 99, 88, 77, 66, 55, 44, 33, 22, 11, 1, 2, 3, 4, 5, 6, 7, 8, 9, 10] (twice (readNBytes 10)) =
      (.ok ([123, 99, 88, 77, 66, 55, 44, 33, 22, 11], 10, [1, 2, 3, 4, 5, 6, 7, 8, 9, 10]), 0) := by
  decide +kernel

/-- `Test_Decode_readArrayOfUint` (decoder_test.go:1257-1333). -/
example :
    unmarshal .bin (.array 8 u32) (.arr (List.replicate 8 (.uint 0))) (eightBytes 4) = .ok (.arr eight) ∧
    unmarshal .borsh (.array 8 u32) (.arr (List.replicate 8 (.uint 0))) (eightBytes 4) = .ok (.arr eight) ∧
    unmarshal .borsh (.slice u32) (.seq (some [])) ([8, 0, 0, 0] ++ eightBytes 4) = .ok (.seq (some eight)) :=
  ⟨ok_of (by decide +kernel), ok_of (by decide +kernel), ok_of (by decide +kernel)⟩

/-- `Test_reflect_readArrayOfUint16_asField` (decoder_test.go:1335-1431). -/
example :
    unmarshal .bin (struct [("Val", .slice u16, "")]) (.struct [.seq none]) (8 :: eightBytes 2) = .ok (.struct [.seq (some eight)]) ∧
    unmarshal .borsh (struct [("Val", .slice u16, "")]) (.struct [.seq none]) ([8, 0, 0, 0] ++ eightBytes 2) =
      .ok (.struct [.seq (some eight)]) ∧
    unmarshal .bin (struct [("Val", .array 8 u16, "")]) (.struct [.arr (List.replicate 8 (.uint 0))]) (eightBytes 2) =
      .ok (.struct [.arr eight]) ∧
    unmarshal .borsh (struct [("Val", .array 8 u16, "")]) (.struct [.arr (List.replicate 8 (.uint 0))]) (eightBytes 2) =
      .ok (.struct [.arr eight]) :=
  ⟨ok_of (by decide +kernel), ok_of (by decide +kernel), ok_of (by decide +kernel), ok_of (by decide +kernel)⟩

end Verif.Vectors
