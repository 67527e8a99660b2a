import Verif.Vectors.Misc
import Verif.Model.Custom
/-!
# The tests with types that have their own marshal methods

interface_test.go, the `CustomEncoding` parts of borsh_test.go, and the forest of variant_test.go.
-/
set_option synthInstance.maxSize 1024
namespace Verif.Vectors
open Verif Verif.Props

/-- Decoding into a zero value gives this value and leaves so many bytes. -/
def readsC (e : Encoding) (c : CTy) (b : Bytes) (v : Val) (left : Int) : Bool :=
  match decodeC c c.erase.zero (Dec.new b e) with
  | (.ok x, d) => same x v && d.remaining == left
  | _ => false

/-! interface_test.go -/

/-- `Example` (interface_test.go:24-44). -/
def exampleTy : CTy := .user (.plain (struct [("Prefix", u8, ""), ("Value", u32, "")]))
  (.value fun v =>
    match v with
    | .struct [.uint p, .uint n] => do writeByte (UInt8.ofNat p); writeUint32 n .be
    | _ => M.panic)
  (some fun _ => do
    let p ← readByte
    let n ← readUint32 .be
    pure (.struct [.uint p.toNat, .uint n]))

/-- `testCustomCoder` (interface_test.go:46-57). -/
def customCoder : CTy := .user (.plain (struct [("val", .str, "")]))
  (.value fun _ => writeBytes (s "this is a test") false)
  (some fun _ => pure (.struct [str "hello world"]))

/-- `TestMarshalWithEncoder` (interface_test.go:59-110): pointers and values, Bin and Borsh. -/
example :
    marshalC .bin (.ptr exampleTy) (.ptr (some (.struct [.uint 0xaa, .uint 72]))) = (.ok (), [0xaa, 0, 0, 0, 0x48]) ∧
    marshalC .bin (.ptr customCoder) (.ptr (some (.struct [str ""]))) = (.ok (), s "this is a test") ∧
    marshalC .borsh (.ptr customCoder) (.ptr (some (.struct [str ""]))) = (.ok (), s "this is a test") ∧
    marshalC .bin customCoder (.struct [str ""]) = (.ok (), s "this is a test") ∧
    marshalC .borsh customCoder (.struct [str ""]) = (.ok (), s "this is a test") := by
  decide +kernel

/-- `TestUnmarshalWithDecoder` (interface_test.go:112-152). -/
example :
    readsC .bin exampleTy [0xaa, 0, 0, 0, 0x48] (.struct [.uint 0xaa, .uint 72]) 0 = true ∧
    readsC .bin customCoder [0xaa, 0, 0, 0, 0x48] (.struct [str "hello world"]) 5 = true ∧
    readsC .borsh customCoder [0xaa, 0, 0, 0, 0x48] (.struct [str "hello world"]) 5 = true := by
  decide +kernel

/-! borsh_test.go -/

/-- `CustomEncoding` (borsh_test.go:1123-1143). -/
def customEncoding : CTy := .user (.plain (struct [("Prefix", u8, ""), ("Value", u32, "")]))
  (.value fun v =>
    match v with
    | .struct [.uint p, .uint n] => do writeUint32 n .le; writeByte (UInt8.ofNat p)
    | _ => M.panic)
  (some fun _ => do
    let n ← readUint32 .le
    let p ← readByte
    pure (.struct [.uint p.toNat, .uint n]))

/-- `TestBorsh_Encode`, by value and by pointer (borsh_test.go:605-642). -/
example :
    marshalC .borsh customEncoding (.struct [.uint 97, .uint 33]) = (.ok (), [33, 0, 0, 0, 97]) ∧
    marshalC .borsh (.ptr customEncoding) (.ptr (some (.struct [.uint 97, .uint 33]))) = (.ok (), [33, 0, 0, 0, 97]) ∧
    readsC .borsh customEncoding [33, 0, 0, 0, 97] (.struct [.uint 97, .uint 33]) 0 = true := by
  decide +kernel

/-- The two fields of this type in `AA` (borsh_test.go:1112-1113), as `TestBorsh_kitchenSink` has them: written and read back. -/
example :
    let t : CTy := .struct (.cons { name := s "InterfaceEncoderDecoderByValue" } customEncoding
      (.cons { name := s "InterfaceEncoderDecoderByPointer" } (.ptr customEncoding) .nil))
    let v : Val := .struct [.struct [.uint 98, .uint 72], .ptr (some (.struct [.uint 99, .uint 9999]))]
    marshalC .borsh t v = (.ok (), [72, 0, 0, 0, 98, 0x0f, 0x27, 0, 0, 99]) ∧
    readsC .borsh t [72, 0, 0, 0, 98, 0x0f, 0x27, 0, 0, 99] v 0 = true := by
  decide +kernel

/-! variant_test.go -/

/-- `Node` (variant_test.go:107-135).  The content of `Impl` stands in place of the interface; its type follows from the id. -/
def nodeTy : CTy := .user (.plain (struct [("TypeID", .array 8 u8, ""), ("Impl", .iface, "")]))
  (.pointer fun p =>
    match p, nodeVariantDef with
    | some (.struct [.arr id, v]), .ok d => do
      let id : TypeID := id.map fun x => match x with | .uint n => UInt8.ofNat n | _ => 0
      let n ← M.lift id.uint32
      writeUint32 n .le
      match d.typeOf id with
      | some (some t) => encodeArg (some (t, v))
      | _ => M.panic
    | _, _ => M.panic)
  (some fun _ =>
    match nodeVariantDef with
    | .ok d => do
      let x ← unmarshalVariant d
      match x.impl with
      | some (_, v) => pure (.struct [.arr (x.id.map fun b => .uint b.toNat), v])
      | none => M.panic
    | _ => M.panic)

/-- `Forest` and `Tree` (variant_test.go:81-90). -/
def treeTy : CTy := .struct (.cons { name := s "Padding" } (.plain (.array 5 u8))
  (.cons { name := s "NodeCount", tag := { sizeOf := s "Nodes" } } (.plain u32) (.cons { name := s "Random" } (.plain u64)
    (.cons { name := s "Nodes" } (.slice (.ptr nodeTy)) .nil))))
def forestTy : CTy := .struct (.cons { name := s "T" } treeTy .nil)

/-- A node of the tests. -/
def node (id : Nat) (v : Val) : Val :=
  .ptr (some (.struct [.arr ((typeIDFromUint32 id .le).map fun b => .uint b.toNat), .ptr (some v)]))

/-- The forest of the tests (variant_test.go:157-210). -/
def forest : Val := .struct [.struct [.arr [.uint 0x73, .uint 0x65, .uint 0x72, .uint 0x75, .uint 0x6d], .uint 5, .uint 65535,
  .seq (some [node 0 (.struct [.uint 3, str "abc"]), node 1 (.struct [.uint 3, .arr [.uint 0, .uint 0], .uint 13]),
    node 1 (.struct [.uint 82, .arr [.uint 0, .uint 0], .uint 923]), node 2 (.struct [.u128 999999999999999 0 none]),
    node 2 (.struct [.u128 983623123129123 0 none])])]]

/-- Its bytes (variant_test.go:138-147). -/
def forestBytes : Bytes :=
  [0x73, 0x65, 0x72, 0x75, 0x6d, 5, 0, 0, 0, 0xff, 0xff, 0, 0, 0, 0, 0, 0,
    0, 0, 0, 0, 3, 0, 0, 0, 3, 0, 0, 0, 0, 0, 0, 0, 0x61, 0x62, 0x63,
    1, 0, 0, 0, 3, 0, 0, 0, 0, 0, 0, 0, 0, 0, 0x0d, 0, 0, 0, 0, 0, 0, 0,
    1, 0, 0, 0, 0x52, 0, 0, 0, 0, 0, 0, 0, 0, 0, 0x9b, 3, 0, 0, 0, 0, 0, 0,
    2, 0, 0, 0, 0xff, 0x7f, 0xc6, 0xa4, 0x7e, 0x8d, 3, 0, 0, 0, 0, 0, 0, 0, 0, 0,
    2, 0, 0, 0, 0x23, 0xd3, 0xd8, 0x9a, 0x99, 0x7e, 3, 0, 0, 0, 0, 0, 0, 0, 0, 0]

/-- `TestDecode_Variant` and `TestEncode_Variant` (variant_test.go:136-287). -/
example : readsC .bin forestTy forestBytes forest 0 = true ∧
    marshalC .bin (.ptr forestTy) (.ptr (some forest)) = (.ok (), forestBytes) := by
  decide +kernel

end Verif.Vectors
