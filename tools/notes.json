{
 "C11": "False of the code: the narrow readers truncate the 64-bit value (C11_violated gives the witness). C11_narrow_partial proves the claim for wire values in the narrow range; C11_truncates gives the result for all values (the low bits, in two's complement for the signed reads).",
 "C15": "False of the code: the writer ignores EncodeCompactU16Length's error and wraps Borsh lengths modulo 2^32 (C15_violated_*). C15_overlong_partial proves what holds. C15_length, C15_bytes, C15_slice and C15_uints give the exact bytes for every length, and what a Borsh string so written reads back as.",
 "C17": "False for SetPosition arguments >= 2^63 (C17_violated); proved for every call sequence whose SetPosition arguments are below 2^63. C17_setPosition gives the outcome for every argument, C17_skip_before how the cursor walks on from before the start.",
 "C18": "False for SetPosition arguments >= 2^63 (C18_violated); proved for every call sequence whose SetPosition arguments are below 2^63. C18_before says exactly which calls panic once the cursor is before the start of the buffer (up to 2^62 before it).",
 "C36": "False: empty maps, empty Borsh slices and Borsh enum payloads keep old content (C36_violated). C36_kept_partial says exactly which places matter, C36_overwrites_partial proves the full claim for types without them.",
 "C37": "False in full: an unexported sizeof field and a skipped field inside an optional struct influence the bytes (C37_violated). Proved outside those two situations.",
 "C40": "False for negative counters and counters beyond int (C40_violated) and for library-typed counters in Borsh (C40_violated_library) and pointers to slices in Borsh (C40_violated_pointer); proved for all others, anywhere in a struct.",
 "C42": "False for slice, array, map and varint payloads (C42_violated); proved for all other payload types. C42_unwritten gives the exact output for slices, arrays, maps and pointers to them: the tag alone.",
 "C43": "False: optional library-type fields panic (Bin, CompactU16) or lose the flag (Borsh) (C43_violated). Proved for optional pointers to library types in Bin and CompactU16. C43_ignores_tags and C43_flag_ignored: the Borsh decoder treats every field of a library type, or pointer to one, as if it carried no optional, coption, order or sizeof tag.",
 "C44": "False in Borsh for library types (C44_violated); proved for Bin and CompactU16. C44_order_ignored: in Borsh the order tag of a library field changes nothing when decoding.",
 "C46": "False beyond 256 types with Uint8 ids and for uvarint32 wire ids of 2^32 and more (C46_violated); proved otherwise for every id encoding. C46_shared covers any number of types: ids wrap and a wire id selects the last of the types that share it; C46_low_bits: only the low 32 bits of a uvarint32 wire id count.",
 "C48": "False for a big-endian Uint128 receiver and for the hex form (C48_violated). Proved for nil/little-endian receivers, and for Int128. C48_big_endian: a big-endian receiver gets the sixteen bytes reversed, for every number.",
 "C54": "False when the caller reuses its buffer, because the recorder keeps the caller's slices (C54_violated). Proved when it does not. C54_current: in every case Bytes() is what the slices handed to Write hold when it is called.",
 "C56": "False: decoded byte slices are windows on the input (C56_window, C56_violated). C56_read_partial proves isolation for Read.",
 "C57": "False in Bin and CompactU16, and in Borsh for pointers to library types (C57_violated). C57_borsh_partial proves the rest of Borsh. C57_nothing: in Bin and CompactU16 a nil pointer field writes nothing, as if skipped, in every struct.",
 "C58": "False for zero-size elements at the end of the buffer (C58_violated). C58_iff: such a slice comes back exactly when as many bytes follow as it has elements.",
 "C62": "False for JSONFloat64, Int64 and Uint64 outside a struct field: their methods panic (C62_violated). Proved for every type and value inside a field, and for the other types outside.",
 "C65": "False: rune indices are used as byte indices, multi-byte letters are destroyed (C65_violated). C65_ascii_partial proves the ASCII part; C65_snake_partial and C65_pascal_partial prove it for any code points without upper-case letters.",
 "C69": "False for negative Int128: String and MarshalJSON print the unsigned value (C69_violated). Proved for Uint128, for DecimalString and for non-negative Int128.",
 "C70": "False: numbers from 2^128 on panic, the minus sign is dropped, a leading zero means octal (C70_violated). C70_range_partial proves it for texts without leading zero of numbers below 2^128 (receiver not big-endian).",
 "C73": "False: Encode panics on Borsh maps with keys that cannot be ordered (e.g. defined 64-bit integer types), on NaN map keys and nil pointers to library types in Bin and CompactU16, and on sizeof counters larger than the slice (C73_violated_*). C73_no_panic_partial proves it for all other values (Spec.Calm), errors and failing writers included.",
 "C77": "False: a scalar that cannot be read becomes zero and the fields before the failing one are overwritten (C77_violated). C77_kept_partial: strings, library types, slices and arrays of unsigned integers are kept. C77_scalar_partial: scalars become zero. C76 says what structs, slices and enums hold.",
 "C79": "False for slices and arrays of the library's Varuint16, Varuint32 and Uint64: the bulk path for unsigned integer kinds reads fixed-width elements and ignores UnmarshalWithDecoder, so a []Varuint32 holds no varints (C79_violated). C79_slice_partial and C79_array_partial prove it for all other element types (inputs below 2 GiB).",
 "C81": "False for nil pointers: Decode((*T)(nil)) panics (C81_violated, all decoder states). C81_arguments_partial proves the rest: non-pointers and nil are refused without reading, Encode(nil) writes nothing.",
 "C86": "False after some failures: TypeID is assigned before the type is looked up, and value types assign Impl only after decoding, so a used receiver can say it is a 'b' while holding the old 'a' (C86_violated). C86_agree_partial: success, and failures inside a pointer type. C86_unreadable_partial, C86_selected_partial, C86_unknown_partial describe the receiver completely in all cases.",
 "C90": "False in two ways: Borsh writes a nil pointer as the zero value of its element, which never ends for a type containing an untagged pointer to itself (C90_violated: every unrolling runs into its cut, one byte later each time); a struct with nothing but a pointer to itself is allocated without end by all three decoders, on any input (C90_violated_decode). C90_encode_partial, C90_decode_partial, C90_roundtrip_partial: whenever an unrolling does not run into its cut, all deeper ones do the same. C90_list: linked lists of any length. Fields that are both optional and coption are not unrolled.",
 "C91": "False of HexBytes, which holds the decoded beginning of a refused string (C91_violated; C91_hex_partial says exactly what it holds), and of Uint128, which stores sixteen hex digits in one half and then panics (C91_violated_uint128). C91_uint128_partial excludes only these strings; C91_int64_partial, C91_uint64_partial, C91_float_partial, C91_bool_partial, C91_int128_partial hold for all inputs.",
 "C92": "False for types in which map entries or slice elements may take no bytes. Maps do not compare the announced length with the bytes left: four bytes make map[struct{}]struct{} go through 2^31-1 entries (C92_violated, C92_violated_entries for all lengths and encodings). Slices do, but empty elements of nested slices count the same bytes again and again: quadratic (C92_violated_nested). For all other types C92_work_partial, C92_memory_partial and C92_unmarshal_partial prove the claim; C92_declared_partial and C92_takes_partial read the condition off the declaration. C92_counted_partial bounds the counter from below for all types, so it cannot leave work out. Proving the full claim would require the code to check map lengths and to refuse empty elements.",
 "C94": "False: C94_violated has a pointer to uint8 that writes nothing and cannot be read, a Uint64 that is written and not read, and slices. The theorems give the exact behaviour: C94_encode, C94_encode_fields, C94_slice say which bytes are written for every content, C94_decode_pointer, C94_decode_kept, C94_decode_fields, C94_slice_decode what is read, C94_flags (encoding, any combination), C94_optional, C94_absent, C94_present, C94_coption_absent, C94_coption_present, C94_both_absent the flags, C94_nil_library, C94_sizeof, C94_sizeof_decode, C94_both_library the panics. Pointers to library types come back (C94_roundtrip_partial, C94_roundtrip_fields_partial). Maps with interface values and interfaces with methods are not modelled.",
 "C95": "False: C95_violated has a method with pointer receiver that is not called for a value, elements of a uint16 kind and the payload of a Borsh enum that are written without the method, and an optional field that cannot be decoded. C95_encode_partial and C95_decode_partial give what is written and read for every type, method and value; C95_closed_partial proves that values come back that are put together from values of types with agreeing methods by pointers, arrays, slices, maps and structs, C95_optional_pointer_partial the same for optional pointers in Bin and CompactU16; C95_payload, C95_bulk, C95_optional, C95_optional_pointer_borsh, C95_nil, C95_pointer_receiver, C95_embedded and C95_embedded_pointer give the exact behaviour elsewhere.",
 "C96": "False for decoding: C96_violated has Borsh structs with a field of type Uint64 and *Uint64 whose errors have no name. Encoding is proved in full (C96_encode_path, C96_first, C96_split, C96_inner, C96_variants). For decoding C96_decode_path_partial and C96_first_decode_partial leave out Borsh fields of library types, C96_split_decode and C96_inner_decode have no exception, and C96_unnamed says what happens for the excluded fields.",
 "C97": "False for decoding: C97_violated. Encoding is proved in full (C97_encode); C97_decode_partial proves decoding for the types made without HexBytes, Varint16, Varuint16, Varuint32, Float128 and presence flags; C97_hidden and C97_flag say that the cause is lost for the others, C97_variant that variants lose every cause but the unknown type.",
 "C98": "False: C98_violated. 128-bit calls compare the order with the two constants, so binary.NativeEndian cannot be written and is read with exchanged words (C98_128 for every such order, C98_native on every input); ReadUint64 with a nil order moves the cursor and then panics. C98_uints_partial, C98_ints_partial and C98_floats_partial prove the rest; C98_nil_reads and C98_nil_writes say exactly what nil does. C98_own_reads and C98_own_writes do the same for an order with the caller's own methods, panicking ones included.",
 "C99": "False: C99_violated. In Bin and CompactU16 the trace line for maps calls rv.Elem() on the map, which panics. C99_off, C99_borsh_partial and C99_mapless_partial prove the claim without tracing, in Borsh, and for types without maps; C99_same_or_panic says that tracing can only cut a call short by a panic, C99_exact exactly for which values it does (given that the call returns without tracing), C99_map that every map panics before its prefix, C99_logger that the logger is restored in all cases.",
 "C100": "False for Written: C100_violated. toWriter adds the length of the chunk before it calls the writer, so that after a failure Written includes the part that was not taken (C100_failed says exactly how much, C100_written bounds it for every writer and every sequence of calls). The rest is proved for all sequences of calls up to the first failure: C100_prefix, C100_complete, C100_encode, C100_write. C100_contract_needed shows that short writes without an error go unnoticed.",
 "C101": "False for the end of the input: C101_violated, C101_truncated (io.EOF for every input that is cut off). C101_run, C101_ok, C101_error, C101_three and C101_unfinished prove the rest for every reader.",
 "C102": "False: C102_violated. C102_held, C102_map, C102_order and C102_slice give what is written, failures included. The decoders do not look into interfaces: C102_decoded says that from any bytes all the interfaces come out nil, C102_one that the value of a single entry is left unread, and C102_violated is a map with two entries that comes back with a key it did not have. C102_trip_partial has the maps that do come back: those whose values are written as no bytes.",
 "C103": "The struct is the value given to Encode or Decode, not an element of something else: C103_nested shows a slice that the older version misreads without an error. C41 has the case of extension fields, where the newer version also reads what the older one wrote.",
 "C104": "False for io.ReadAll and io.Copy: Read fills the whole buffer or returns io.ErrShortBuffer, and never io.EOF. C104_violated: io.ReadAll fails on every decoder, also on an empty one, whatever sizes its buffer grows through, and which bytes it returns; C104_copy: io.Copy writes whole buffers only and fails; C104_small: below 512 bytes nothing is returned. C104_contract shows that io.ReadAll works for readers that keep to the documentation, C104_dishonest that the decoder does not. C104_full_partial, C104_limited_partial, C104_copyN_partial, C104_uvarint, C104_uvarint_short and C104_compact prove the rest; C104_full_promise states what io.ReadFull promises for every reader. Readers such as bufio.Reader are not modelled.",
 "C105": "C105_elsewhere and C105_old_content hold for any sharing. C105_unshared has the condition on sharing; C105_sharing_matters shows what happens without it, and C105_shared says exactly what two fields that lead to one variable hold afterwards. C105_borsh_pointer: Borsh fields that point to library types get new variables. Pointers into the middle of a variable and cyclic destinations are not modelled.",
 "C106": "The reads are modelled a second time with both results (Model/Returns); each theorem says that this version does what the version with one outcome does and returns the given zero value with every error. The buffer of the decoder is taken to be not nil (Peek(0) on a decoder over nil returns nil).",
 "C107": "False with tracing: C107_violated. Arrays, slices and maps rename the package logger (zlog = zlog.Named(...)) and a deferred function stores the old one back; two calls that overlap leave the other's name behind, and C107_grows shows that the name gets longer without bound. C107_off and C107_off_schedule prove the claim without tracing. With tracing, C107_result proves results and bytes, C107_prefix that the name only ever gets longer than before, C107_turns_partial that calls which do not overlap restore it. Loads and stores of the variable are taken to be indivisible; for Go they are a data race.",
 "C108": "The reads and Decode are modelled once more with the numbers in their messages (Model/Messages); C108_same_reads and C108_same_decode say that they are the reads and decode of the rest of the model. Examples beside the theorems show that the conditions are needed: with a binary_extension field inside a slice the number can stay the same when a byte is added, and with the cursor before the buffer (SetPosition) it counts from there.",
 "C109": "Model/HeapEncode is the encoder on the memory of Model/Heap, with Spec.Shows (Tree without the condition on sharing) saying which value a variable shows. C109_value: the outcome, the bytes and the Write calls are those for the value shown. C109_copy puts it together with the round trip (C27-C30) and C105. C109_cycle is about one linked-list type, whose unrollings (C90) are all exhausted; that the heap is not changed holds by construction, the heap is a parameter of the encoder. C109_sharing_lost: two pointers to one variable come back as two variables.",
 "C110": "The relation Spec.SameLayout has one rule per kind of difference, with reflexivity, symmetry, transitivity and congruence for slices, arrays and struct fields; no bytes occur in it. The conditions of the rules are the exceptions of the code: C110_strings (SafeString and string differ in Bin), C110_varint_array (a Varuint16 in an array is not a varint), C110_borsh_order (Int64 obeys a byte-order tag in Borsh, int64 does not), C110_nil (nil pointers outside Borsh). The values must be encodable, and for reading supported (C27-C30), in their own type: the rules compare layouts, not ranges.",
 "C111": "Spec.Within relates a value to a part of it and to the value with the part replaced, with the offset as the sum of the sizes of what stands before; Spec.offsetOf computes it from the type where it can. Elements of slices and arrays of Varuint16 and Varuint32 are left out (they are written fixed-width there, C79), map keys too (replacing one may change the order). C111_optional_moves: behind an optional field the offset depends on the value. SetPosition refuses the end of the buffer, hence k < length in C111_read.",
 "C112": "Spec.rust is the Borsh encoding from the specification at borsh.io, written without reference to the Go code; Spec.goTy and Spec.goVal give the Go counterparts. Missing: the README's own type for Option<T>, a value tagged optional, loses Some of a zero value (C112_violated, C112_optional_value says exactly when); the theorems hold with a pointer under optional instead. Enum payloads that are vectors, arrays or maps, and Option of 128-bit integers, need a struct around them (C112_plain_payload, C112_plain_option). NaN is refused by both sides. Map keys are integers and strings; sets, Result and Box are not in RTy. Spec.RVal.string is any bytes; Rust refuses what is not UTF-8, and Go does not.",
 "C113": "Spec.bytesCmp is bytes.Compare, Spec.valCmp the order of values, Spec.Sortable the types; none refers to the encoder. C113_leading is the statement for keys made of a leading group of fields and the rest. C113_little_endian, C113_array, C113_signed and C113_strings show what happens outside Sortable.",
 "C114": "Spec.least, Spec.most and Spec.Bounded compute the bounds from the declaration; the flag r says whether for reading. C114_zero and C114_most say when the bounds for writing are reached; C114_least_read (in Props/Zeroed) says so for the least size for reading; the greatest for reading is reached in the examples. C114_nil_pointer and C114_extension show where reading and writing differ.",
 "C115": "Spec.blank is the value that zeros stand for, Spec.Straight the types for which it is the zero value. C115_nil_pointer shows why untagged pointers are excluded there: Bin writes nothing for nil but reads a value.",
 "C116": "Spec.renamed replaces the names and the names in sizeof tags; the theorems are equations between the encode and decode functions, so they hold without any condition on value or input. Whether a field is exported is kept apart from its name in the model and does not change. Error texts, which mention field names in places, are not part of this statement; errors are compared by class. C116_tag_left_behind and C116_small_letter show the limits.",
 "C117": "Spec.pared removes the tags from the declaration. The theorems are about the parsed tags (C53, C84 say how they come from the text). C117_coption_borsh and C117_variants_bin show that the same tags count elsewhere."
}
