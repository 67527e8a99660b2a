import Verif.Props.Ints
import Verif.Props.CompactU16
import Verif.Props.Varints
import Verif.Props.Scalars
import Verif.Props.Sessions
import Verif.Props.Encode
import Verif.Props.RoundTrip
import Verif.Props.Robust
import Verif.Props.Structs
import Verif.Props.Libs
import Verif.Props.Enums
import Verif.Props.Variants
import Verif.Props.U128
import Verif.Props.Json
import Verif.Props.Memory
import Verif.Props.Cases
import Verif.Props.CasesUnicode
import Verif.Props.Sighash
import Verif.Props.Tags
import Verif.Props.StructTag
import Verif.Props.Tools
import Verif.Props.Utf8
import Verif.Props.JsonInput
import Verif.Spec.JsonString
import Verif.Proofs.JsonString
import Verif.Spec.GoInteger
import Verif.Proofs.GoInteger
import Verif.Props.JsonText
import Verif.Model.Arguments
import Verif.Props.Arguments
import Verif.Spec.FixedSize
import Verif.Proofs.FixedSize
import Verif.Props.FixedSize
import Verif.Props.U128Text
import Verif.Props.Lengths
import Verif.Props.Canonical
import Verif.Props.Quieting
import Verif.Props.EncodePanics
import Verif.Props.Restore
import Verif.Props.Failure
import Verif.Props.Containers
import Verif.Props.FailureParts
import Verif.Props.Fields
import Verif.Props.FailureFields
import Verif.Model.Sha256
import Verif.Props.Sha256
import Verif.Props.JsonFloat
import Verif.Model.VariantInto
import Verif.Props.VariantState
import Verif.Props.Parts
import Verif.Spec.Recursive
import Verif.Proofs.Recursive
import Verif.Props.Recursive
import Verif.Model.JsonInto
import Verif.Props.JsonInto
import Verif.Spec.Enums
import Verif.Model.Work
import Verif.Spec.Work
import Verif.Proofs.Work
import Verif.Proofs.Takes
import Verif.Proofs.Pays
import Verif.Props.Work
import Verif.Spec.Alike
import Verif.Proofs.Alike
import Verif.Props.Alike
import Verif.Spec.Classes
import Verif.Props.Classes
import Verif.Vectors.Basic
import Verif.Vectors.Encoder
import Verif.Vectors.Decoder
import Verif.Vectors.Borsh
import Verif.Vectors.Misc
import Verif.Vectors.Custom
import Verif.Props.Counts
import Verif.Props.CasesReader
import Verif.Props.DynamicFlags
import Verif.Props.Custom
import Verif.Props.CustomCases
import Verif.Props.Exact
import Verif.Props.ExactParts
import Verif.Model.Report
import Verif.Proofs.Report
import Verif.Proofs.ReportFacts
import Verif.Spec.Reports
import Verif.Proofs.ReportPaths
import Verif.Proofs.ReportSplit
import Verif.Props.Reports
import Verif.Model.ByteOrder
import Verif.Spec.ByteOrders
import Verif.Props.ByteOrders
import Verif.Model.Trace
import Verif.Spec.Trace
import Verif.Proofs.Trace
import Verif.Props.Trace
import Verif.Model.Writer
import Verif.Props.Writers
import Verif.Model.ByteReader
import Verif.Props.ByteReaders
import Verif.Model.DynamicMap
import Verif.Spec.DynamicMap
import Verif.Proofs.DynamicMap
import Verif.Props.DynamicMap
import Verif.Proofs.Evolve
import Verif.Props.Evolve
import Verif.Props.Readers
import Verif.Props.Heap
import Verif.Props.Returns
import Verif.Model.Goroutines
import Verif.Spec.Goroutines
import Verif.Proofs.Goroutines
import Verif.Props.Goroutines
import Verif.Model.Messages
import Verif.Spec.Messages
import Verif.Proofs.Messages
import Verif.Props.Messages
import Verif.Model.HeapEncode
import Verif.Spec.HeapEncode
import Verif.Proofs.HeapEncode
import Verif.Props.HeapEncode
import Verif.Spec.Layout
import Verif.Proofs.Layout
import Verif.Props.Layout
import Verif.Spec.Offsets
import Verif.Proofs.Offsets
import Verif.Props.Offsets
import Verif.Spec.Rust
import Verif.Proofs.Rust
import Verif.Props.Rust
import Verif.Props.Sorted
import Verif.Props.Size
import Verif.Props.Zeroed
import Verif.Props.Rename
import Verif.Props.Pared
