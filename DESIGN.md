# Formal model of gagliardetto/binary in Lean 4

The subject is `/repo` (Go, read as text, never built or run). The deliverable is `/verif/lean`:
an executable Lean model of the code, small independent specifications, and theorems.

## Layout

| Path | Content |
| --- | --- |
| `Verif/Basic.lean` | `Res` (ok / err / panic), the state monad `M`, byte strings |
| `Verif/Model/*.lean` | the model, one definition per Go function, each citing file:lines |
| `Verif/Spec/*.lean` | specifications written without the model's helpers |
| `Verif/Proofs/*.lean` | helper lemmas and inductions |
| `Verif/Props/*.lean` | the property theorems `Cnn_*` with non-vacuity examples |
| `Verif/Vectors/*.lean` | the tests of the repository restated on the model |
| `seeded/LOG.jsonl` | wrong programs tried against the theorems; `failed.directly`: the declarations whose proofs broke, `failed.claims`: the claims whose proofs use them in the unedited project of that time (a broken theorem of a `mutual` block takes the block with it), `tightened`: what was added when the edit had survived |

## Modelling decisions

* A Go function that returns `(T, error)` and mutates `*Decoder`/`*Encoder` is `σ → Res T × σ`.
  `Res` distinguishes a returned error from a run-time panic, so "never panics" is a statement.
  The state after an error is kept (cursor and output positions after failures are observable).
* Bytes are `List UInt8`. Go strings are byte strings. Fixed-width integers are `Nat`/`Int` with explicit
  range hypotheses, conversions (`uint16(x)`, `int(x)`) are explicit modular maps.
  Floats are their IEEE bit patterns.
* `int` is 64-bit. The cursor is an `Int` (SetPosition can make it negative); `Remaining` does not wrap
  (the difference is only visible at negative cursors, which are excluded or shown reachable explicitly).
* The writer behind an `Encoder` is an arbitrary function of the history of chunks and the next chunk that
  accepts or rejects it: all failure points are covered.
* `reflect` is modelled by a type grammar `Ty` (booleans, sized ints, floats, strings, pointers, slices, arrays,
  maps, structs with tagged fields, interfaces, the library's own marshaler types, unsupported kinds) and a value
  grammar `Val`. Encoding and decoding are structural recursions over `Ty`. A Go map is a list of entries in the
  order `MapKeys` returns them; that order is universally quantified.
* `decode*` takes the previous content of the destination, so "decoding into a used variable" is expressible.
* bin and compact-u16 reflect codecs are textually identical up to three helpers (diffed); they are one definition
  parametrised by the encoding.

## What is modelled, file by file

| Go file | Lean | Covered |
| --- | --- | --- |
| `compact-u16.go` | `Model/Compact` | all functions |
| `decoder.go`, `encoder.go` | `Model/Decoder`, `Model/Encoder`, `Model/Varint`, `Model/Utf8` | all exported calls |
| the same with any `binary.ByteOrder` | `Model/ByteOrder` | all calls with an order; the methods of the order do not change or keep the slices they get (C98) |
| `decoder_bin.go`, `decoder_borsh.go`, `decoder_compact-u16.go`, `decoder.go` (reflection) | `Model/DecodeReflect` | all |
| the same, number of steps | `Model/Work` | all (C92) |
| the same on recursive types | `Spec/Recursive` | as limits of finite type trees (C90) |
| the same, content of the destination after an error | `Model/DecodeInto` | all; agreement with `Model/DecodeReflect` is proved (C76) |
| `encoder_bin.go`, `encoder_borsh.go`, `encoder_compact-u16.go` | `Model/EncodeReflect` | all |
| the same on `interface{}` that is not nil | `Model/Dynamic` | variables, struct fields, slice elements; not maps (C94) |
| the same on types with `MarshalWithEncoder` / `UnmarshalWithDecoder` written by the user, also promoted from embedded fields | `Model/Custom` | the methods are arbitrary programs on the encoder and decoder; map keys have none (C95) |
| the same, wrapping of errors (`fmt.Errorf` with field names, `%w` or `%s`) | `Model/Report` | all; forgetting the wrapping gives `Model/EncodeReflect` and `Model/DecodeReflect` (C96, C97) |
| the same while `traceEnabled` is set | `Model/Trace` | the encoders, with the name of `zlog` as state (C99); what is logged is not modelled, and the trace lines of the decoders have no effect |
| the same in several goroutines | `Model/Goroutines` | what the traced encoders do to `zlog`, step by step, in any interleaving (C107); loads and stores of `zlog` are indivisible; `zlog` is the only package variable assigned after `init` |
| the same on writers that take part of a chunk | `Model/Writer` | the encoder only looks at the error, so its model is unchanged (C100) |
| the function on an `io.ByteReader` of `compact-u16.go`, any reader | `Model/ByteReader` | all (C101) |
| `Read`, `ReadByte` of `decoder.go` under the functions of Go's `io` and `encoding/binary` | `Model/Reader` | `io.ReadFull`, `io.ReadAll`, `io.Copy`, `io.CopyN`, `io.LimitReader`, `binary.ReadUvarint` (C104) |
| the same decoders on a heap, with pointers, slices and maps as references | `Model/Heap` | all types; no pointers into the middle of a variable, no cycles (C105) |
| the same encoders on that heap | `Model/HeapEncode` | all types; the heap is only read, cycles included (C109) |
| both results of the reads of `decoder.go`, `compact-u16.go` | `Model/Returns` | all reads with a value; the buffer is not nil (C106) |
| the numbers in the error messages of `decoder.go` | `Model/Messages` | all reads and `Decode`; the rest of the wording is not kept (C108) |
| maps and slices of interfaces, nested | `Model/DynamicMap` | keys of any modelled type except interfaces (C102) |
| `interface.go` (Marshal/Unmarshal helpers, `ByteCount`) | `Model/Interface` | all |
| `types.go`, `u128.go` | `Model/Types` (binary forms), `Model/U128`, `Model/Json`, `Model/Text`, `Model/Float` (text forms), `Model/JsonInto` (receivers) | binary and JSON methods; `JSONFloat64` input too |
| `variant.go`, `sighash.go` | `Model/Variant`, `Model/VariantInto` (receiver after an error), `Model/Sighash`, `Model/Sha256` | all; the hash is a parameter `H`, and `Model/Sha256` is SHA-256 |
| `heck.go` | `Model/Heck`, `Model/HeckReader` | all, Unicode tables as a parameter; `HeckReader` has it statement by statement and is proved equal |
| `tags-parser.go` | `Model/Tags`, `Model/StructTag` | `parseFieldTag` on the values of the three keys, and on the raw tag (`reflect.StructTag.Get`, `strconv.Unquote` on all byte strings) |
| `tags-options.go` (`Encoding`), `error.go`, `utils.go:isZero` | `Model/Arguments` | all; the text of the error is not modelled |
| `tools.go` | `Model/Memory`, `Model/Tools` | recorder and formatting |
| slices sharing memory (`readNBytes`, `Peek`, `Read`) | `Model/Memory` | a heap of arrays; refinement to `Model/Decoder` is proved (C56) |

## Not modelled

* methods of user-defined types that keep the encoder or decoder for later or store into other variables, methods on map keys, interfaces
  with methods, maps with keys of interface type, byte orders with side effects;
* the destination after a panic, and the cursor after the panic of an optional field of a library type (the code reads the flag first), the wording of error messages (modelled are an error class, the names of fields and whether the cause is wrapped), what is logged;
* the Unicode tables (a parameter `U`, assumed to agree with ASCII on
  ASCII only);
* the order in which Borsh writes map entries before it fails on a NaN key, pointer map keys comparing equal after decoding (decoded pointers are always new);
* assignments to the package variable `TypeSize` (its values are constants in the model);
* time and memory beyond the counter of C92, goroutines that share one encoder or decoder (those are single-threaded by contract; different encoders are in C107);
* `remaining` and `l*2` products are not wrapped at 2^64 (they cannot reach it with buffers that exist).

Readings of Go that matter: Go 1.22 or later for `reflect.Value.IsZero` (negative zero floats count as zero; before 1.22 they did
not); `reflect` converts `float32` through `float64`, which quiets signalling
NaNs; enum variant fields are assumed exported.

## Where the code and the property disagree

The theorem named `Cnn_violated` gives the witness; the `_partial` theorems say what holds.

| Property | Disagreement |
| --- | --- |
| C11 | `ReadUvarint16/32`, `ReadVarint16/32` truncate |
| C15 | over-long lengths: CompactU16 writes no prefix, Borsh wraps at 2^32 |
| C17, C18 | `SetPosition(idx >= 2^63)` moves the cursor below zero, the next read panics |
| C36 | empty maps, empty Borsh slices and enum payloads keep the destination's old content |
| C37 | unexported `sizeof` fields and skipped fields in optional structs reach the wire |
| C40 | negative or huge `sizeof` counters count as zero; in Borsh the decoder ignores `sizeof` on library-typed counters, the encoder does not; behind a pointer the Borsh encoder forgets the counter, the decoder does not |
| C42 | enum payloads that are slices, arrays, maps are dropped; varints written fixed-width |
| C43 | optional library-type fields panic when decoded, Borsh loses their flag |
| C44 | Borsh decodes library types in the byte order of an earlier field |
| C46 | 257 `Uint8` variants collide; uvarint32 ids are truncated |
| C48 | big-endian `Uint128` JSON comes back reversed; hex JSON never accepted, can panic |
| C54 | `WriteByWrite` keeps the caller's buffers |
| C56 | decoded `[]byte` share the input buffer, and appending to one overwrites undecoded input |
| C57 | nil pointers outside optional fields write nothing (Bin, CompactU16) |
| C58 | slices of zero-size elements at the end of the buffer are refused |
| C62 | `JSONFloat64`, `Int64`, `Uint64` panic outside a struct field |
| C65 | case conversion destroys multi-byte letters next to a word boundary inside a word; without upper-case letters they are kept |
| C69 | negative `Int128` values print as positive numbers in `String` and JSON |
| C70 | 128-bit JSON input: panic from 2^128 on, minus sign dropped, leading zero means octal |
| C73 | encoding panics: unordered Borsh map keys, NaN map keys (Bin, CompactU16), nil library pointers (Bin, CompactU16), too large `sizeof` counters |
| C77 | a failed Decode zeroes scalars and keeps the fields already read |
| C79 | slices and arrays of `Varuint16`, `Varuint32`, `Uint64` are read (and written) as fixed-width integers by the bulk path |
| C86 | a used `BaseVariant` keeps its old `Impl` under the new `TypeID` when the call fails |
| C81 | `Decode` of a nil pointer panics although `InvalidDecoderError` is documented (and has a message) for it |
| C90 | a nil pointer inside a type that it points to is written by Borsh without end; a struct that is only a pointer to itself is decoded without end |
| C91 | `HexBytes.UnmarshalJSON` stores the digits before the first wrong one and then fails; `Uint128.UnmarshalJSON` stores half of a hex text and then panics |
| C92 | the map decoders loop as often as the length prefix says without comparing it with the bytes left, so four bytes make `map[struct{}]struct{}` go through two billion entries; slices of slices of empty elements take quadratic time |
| C94 | an `interface{}` holding a pointer to anything but a library type is read but not written, one holding a library type without a pointer is written but not read; elements of `[]interface{}` are written but never read |
| C95 | `MarshalWithEncoder` with a pointer receiver is not called for values that are not behind a pointer; no method is called for elements of unsigned integer kinds nor for writing the payload of a Borsh enum; decoding an optional field of a type with `UnmarshalWithDecoder` panics in Bin and CompactU16 |
| C96 | Borsh: an error in a field of a library type (or a pointer to one) is returned without the name of the field |
| C97 | errors of `HexBytes`, `Varint16`, `Varuint16`, `Varuint32`, `Float128` and of presence flags are formatted with `%s` when decoding: `errors.Is` does not find `ErrVarIntBufferSize` or the end of the input |
| C98 | `WriteUint128` refuses `binary.NativeEndian`, `ReadUint128` and `Uint128.Bytes` exchange the words; with a nil order `ReadUint64` moves the cursor before it panics |
| C99 | with tracing on, every map panics in Bin and CompactU16: the trace line calls `rv.Elem()` on it |
| C100 | `Written()` counts what was handed to the writer, also the part that it did not take |
| C101 | `DecodeCompactU16LengthFromByteReader` reports `io.EOF` for a length that is cut off, `DecodeCompactU16` reports `io.ErrUnexpectedEOF` |
| C102 | the values of a `map[K]interface{}` are written in full and never read: they are taken for the next keys, without an error |
| C104 | `Read` returns `io.ErrShortBuffer` where `io.Reader` asks for the bytes that are left and then `io.EOF`: `io.ReadAll` and `io.Copy` always fail |
| C107 | with tracing on, two calls of `Encode` that overlap leave the package logger with another name; it grows without bound |
| C112 | the README gives `Age uint8` under `optional` for `Option<u8>`: `Some(0)` is read like `None` and written back as `None`; an optional pointer to `Uint128` is written like Rust's `Option<u128>` and read with the presence byte as part of the number |

## Per property plan

(see MANIFEST.json for status and theorem names)

Some predicates on types (`uintKind`, `isEnum`, `baseLib`, `directLib`, `sizeofVal`, `lookupSize`) are used by the specifications and
by the model.  `Props/Classes` says what they mean, independently of their definitions; `isZero` and `keyEq` are treated in C38 and C78.

* C01-C03, C12, C13, C16: lemmas on positional encodings by induction on the width; the cursor lemmas are stated for
  an arbitrary split `pre ++ bytes ++ rest` of the buffer.
* C04-C07: closed-form characterisation of encoder and decoder; arithmetic.
* C08-C11: induction on the base-128 representation; panics at 2^56 (8-byte buffer) are proved; C11 is false of the
  code (truncation): prove the in-range part and a witness of the violation.
* C14, C15: from C01/C04/C08; C15 is false for compact-u16 (ignored error) and for Borsh >= 2^32: witnesses.
* C17-C20: invariant over a list of decoder operations; C17/C18 are false for SetPosition(idx >= 2^63): prove with that
  operation's argument below 2^63 plus witness.
* C19: induction over the list of writes.
* C21-C23: simulation between a failing and a non-failing writer, by induction over `Ty`.
* C24-C30, C32: a pure wire specification; encoder refines it; decoder inverts it; corollaries.
* C31: sorting a permutation.
* C33-C37: mutual induction over `Ty`/fields with invariants.
* C38-C44, C57, C58: field-level theorems and witnesses where the code violates the property.
* C45, C46: finite-map reasoning. C47-C49: arithmetic and decimal printing/parsing.
* C50-C53: list-of-characters models. C52: the hash is a parameter.
* C54-C56, C59-C62: small inductions; C56 needs a heap model of slices (views into a buffer).
* C63-C66: see `Props/Cases`, `Props/Tools`.
* C67: a relational specification of the repair (`Spec/Utf8`), shown to be functional.
* C68: grammars of JSON literals and decimal/hex texts (`Spec/Json`), acceptance proved in both directions. C69, C70: from
  C47/C48 and uniqueness of decimal texts.
* C71, C72: what a successful read has consumed (`Proofs/Got`), by induction over `Ty` for C72. C73: an invariant on encoder
  states, by induction over `Ty`. C74: every value read lies in the domain of the round trip (`Proofs/Restore`), again by
  induction over `Ty`; `C74_condition_needed` and `C74_keys_needed` show why slice elements must occupy
  bytes and map keys must not be floats. C75: values read are normalised (`Norm`), and `copy` keeps their bytes
  (`Proofs/Settle`); `C75_decoded_needed` shows that this fails for values that were not decoded.
* C76, C77: where `fillFields` stopped (`Proofs/FillField`); the content of the variable keeps its shape (`Proofs/FillSafe`).
* C78, C79: the loops of the decoder as relations (`Spec/InTurn`); `setEntry` keeps the last pair (`Proofs/InTurn`, `Proofs/KeyEq`); the bulk path for unsigned integers does what the loop would do.
* C80: JSON strings with escapes (`Spec/JsonString`) and Go integer texts (`Spec/GoInteger`) as inductive grammars; the two parsers of the model accept exactly them (`Proofs/JsonString`, `Proofs/GoInteger`). The same grammar of strings gives C68 for texts with escapes (`C68_*_string`).
* C81, C82: by unfolding. C83: `Spec/FixedSize` computes the size from the type; `Proofs/FixedSize` proves by induction over the type that decoding takes exactly that many bytes; the encoder's side follows from the round trip.
* C84: `Spec/StructTag` gives pairs, keys and Go string literals as inductive definitions; `unquote` and `tagLookup` are proved sound and complete for them on all byte strings, then C53 is applied to the values.
* C85: `Spec/InFields` gives the flags and the fields one after the other as inductive relations; the field loop of the decoder is proved equivalent to them in both directions. C76 uses the same flags for what a failed field holds.
* C86: from `readVariantID` and the agreement of `Model/VariantInto` with `Model/Variant`. C52 is proved for every hash of 32 bytes, then `Model/Sha256` (FIPS 180-4) is shown to be one; known hashes are evaluated by the kernel.
* C87: the underscores that `underscoreOK` lets through are those of a grammar of literals (`Spec/Double`), which the digit loops then read; `roundFloat` is shown to yield the nearest double by comparing it with its two neighbours. Exponents that the loop cuts off overflow or vanish either way in texts of at most 2000 bytes; `C87_needed` shows a longer one where they do not.
* C88: no writer reads the count or the log, and no reader looks at the bytes behind the cursor (`Proofs/Local`, `Proofs/Twin`); `Encode` and `Decode` set the field option before anything reads it.
* C89: by C88 a part of a value is written as `Marshal` writes it alone, so the outcome of the whole is `Spec.inSeries` of the outcomes of its parts, failures included.
* C90: a recursive type is the sequence of its unrollings, each being the next one cut off (`Spec.Cut`) where an unsupported type stands in; by structural recursion the codecs on a cut type either fail with `unsupported` or do the same as on the longer one. Cyclic values do not exist in the model (`Val` is a finite tree).
* C91: `Model/JsonInto` has the receiver as its state, with one assignment after the other; each method is compared with the corresponding function of `Model/Json`, `Model/Float` or `Model/U128`, whose results are characterised by C68, C80 and C87.
* C92: `Model/Work` follows `decCore` and counts calls, loop rounds and bytes; `Spec/Work` has the sizes of values and types. `Proofs/Work` shows by induction on the type that work and result stay below the size of the type for each byte consumed, given that slice elements and map entries consume some (`Takes`); `Proofs/Takes` reads this condition off the declaration. `Proofs/Pays` bounds the counter from below, so that a counter that leaves something out is noticed: ten bytes and one type's worth of parts for each unit.
* C93: `Spec/Alike` lists the types, `Proofs/Alike` runs the coders for two encodings side by side (`InStep`) and shows by induction on the type that they stay in step.
* C94: `Spec/Dynamic` says what a content offers (`offered`) and where it leads (`pointee`); a struct with interface fields is shown to be encoded and decoded like a struct without them.
* C95: `Spec/Custom` says which bytes may be written (`Written`) and what may be read from them (`ReadAs`), given what the methods write and read (`MethodWrites`, `MethodReads`); the library's own types are one instance (`C95_like_library`).
* C96, C97: an error is a `Report` (names of fields, whether the cause can be found, the cause); `Spec/Reports` says which sequences of names are paths through a type (`Named`) and which types keep their causes (`clear`).
* C98: `Spec.Inverse` is what is expected of an order; `C98_std` ties the calls to those of the other properties.
* C99: the traced encoder follows the plain one or panics part of the way (`Shadows`), by induction on the type; where the plain one returns, `Spec.meets` decides (`Fate`).
* C100: from the simulation of C22, with the bytes taken of each chunk as a function of the history.
* C101: the loop on a reader is compared with the loop on the bytes that it returns (`Reads`); what is looked at is determined by `Decided`/`Unfinished`.
* C102: `Local`/`Does` as for C89, with an own sort that carries what belongs to a key; decoding is C78 for values of type `interface{}`.
* C103: `GoesOn` (`Proofs/Evolve`) relates a field loop to the same loop with more fields after it: same failures, else on with the rest from the state reached. Prefixes by `Local`, the trip by `decode_r`, enums by induction over the variants.
* C104: one `Read` in closed form (`C104_read`), then induction over the rounds of each loop; the standard functions are modelled with a number of rounds after which they must have returned, and validated on readers that keep the contract (`C104_contract`).
* C105: `Model/Heap` follows `Model/DecodeReflect` with a heap as state. What is assigned: a set closed under pointers is left only through itself (`Inside`, `Proofs/HeapFrame`). Agreement: `Spec.Tree` says which value a variable shows and which cells it consists of, none twice; the two decoders are run side by side (`Sim`, `Proofs/HeapDecode`), with disjoint cells for disjoint parts.
* C106: `Spec.BothResults` relates a read with one outcome to the read with two results; it is kept by sequencing, checks and conversions, so each read is one line. Only the varints need an induction (`binary.Uvarint` returns 0 when it fails).
* C107: the encoders once more, keeping the list of what they do to `zlog`; by induction on the type this list is balanced and the rest is as in `Model/Trace` (`Logs`). A schedule is a list of goroutine numbers; `Goroutine.Holds` (every name held starts with the first one) is kept by each step.
* C108: `Spec.Tells` is closed under sequencing, so only the reads of a fixed size need an argument: they fail without moving, or move by that size. Both facts (`Tells`, and agreement with the model without numbers) go through one induction on the type (`Says`).
* C109: `Spec.Shows` is `Spec.Tree` without the condition that no address is visited twice. The encoder on the heap equals the encoder on the value shown as a function, by recursion on the type (`Proofs/HeapEncode`); the copy is then C105_unshared for a new variable.
* C110: `Spec.SameLayout` relates a value of one type in a field to a value of another type in another field; that the bytes agree is one induction over the three mutual relations (`Proofs/Layout`), and the encoder and decoder come in through `wire` (C24-C30).
* C111: `Spec.Within` is a context with a hole, so that one induction (`Within.stands`) gives both the position of a part and its replacement; offsets from the type use `fixedSize` (C83), whose size is proved again on `wire` for values that need not be decoded.
* C112: `Spec.rust` (Borsh from its specification) and `Spec.goTy`/`goVal` (Go counterparts) are related to `wire` by one mutual induction per fact: bytes, `Encodable`, `Returns` with `copy` the identity, and the converse `from_rust`, which finds a Rust value for anything Go can write.
* C113: `Spec.Sortable`, `bytesCmp` and `valCmp` are related by `sorted_wire`, an induction over the type: encodings have equal length, so comparing a concatenation is comparing the parts in turn.
* C114: `Spec.least` and `Spec.most` follow the declaration; `size_wire` bounds the specified bytes and `size_decode` (via `Spans`, which bounds how far a read moves the cursor) what a successful decode takes, without reference to the values.
* C115: `blank_wire` (zero bytes only) and `blank_copy` (read back unchanged) are inductions over the type; the rest follows from the round trip and from C32.
* C116: an induction over the type and the fields for the encoder and the decoder; the table of recorded sizes is renamed along (`renamed_lookup`, which needs the renaming to be injective).
* C117: the same induction as for C116 with the tags pared down; `pared_struct` separates enums, which are coded by their variants, from plain structs.
* Claims that fail: `Props/Exact` and `Props/ExactParts` say what the code does instead, for all inputs of the region where the claim fails, rather than only at a witness (C11, C15, C17, C18, C42-C44, C46, C48, C54, C57, C58). Outside them remains `Remaining` for cursors so far before the start that the subtraction itself overflows.

## Checking the model against the tests of the repository

The code cannot be run here, so the expectations of its own tests are the only data about its behaviour besides the source.
`Verif/Vectors` restates them as examples about the model: all of encoder_test.go, decoder_test.go, compact-u16_test.go,
u128_test.go, utils_test.go, parse_test.go, heck_test.go, sighash_test.go, borsh_test.go, variant_test.go and
interface_test.go (the types with their own marshaler in `Vectors/Custom.lean`). Each file says what it leaves out. They are no properties: they say that the
model is the program on these inputs. They rely on the tests passing at this commit, which was not checked, as nothing was run.

## Trusted base

No axioms are declared, and no `sorry`, `native_decide` or `bv_decide` is used. Every property theorem depends on a subset of
the three standard axioms; `tools/axioms.sh` prints the list per theorem.

Lean 4.33.0 kernel; axioms `propext`, `Classical.choice`, `Quot.sound` at most; the reading of the Go source and of the
Go standard library functions used (`encoding/binary`, `encoding/json`, `reflect`, `strconv`, `strings`, `sort`, `math`,
`math/big`), as cited. `strconv.ParseFloat` is taken to round correctly, as it documents.
