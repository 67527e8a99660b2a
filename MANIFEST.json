{
 "claims": [
  {
   "property": "C01",
   "status": "proved",
   "theorems": [
    "Verif.Props.C01_uint",
    "Verif.Props.C01_int",
    "Verif.Props.C01_128"
   ],
   "note": ""
  },
  {
   "property": "C02",
   "status": "proved",
   "theorems": [
    "Verif.Props.C02_layout",
    "Verif.Props.C02_layout128"
   ],
   "note": ""
  },
  {
   "property": "C03",
   "status": "proved",
   "theorems": [
    "Verif.Props.C03_short",
    "Verif.Props.C03_short_float"
   ],
   "note": ""
  },
  {
   "property": "C04",
   "status": "proved",
   "theorems": [
    "Verif.Props.C04_compact_roundtrip",
    "Verif.Props.C04_compact_roundtrip_coder"
   ],
   "note": ""
  },
  {
   "property": "C05",
   "status": "proved",
   "theorems": [
    "Verif.Props.C05_compact_range"
   ],
   "note": ""
  },
  {
   "property": "C06",
   "status": "proved",
   "theorems": [
    "Verif.Props.C06_compact_canonical",
    "Verif.Props.C06_compact_unique",
    "Verif.Props.C06_compact_total"
   ],
   "note": ""
  },
  {
   "property": "C07",
   "status": "proved",
   "theorems": [
    "Verif.Props.C07_compact_stream"
   ],
   "note": ""
  },
  {
   "property": "C08",
   "status": "proved",
   "theorems": [
    "Verif.Props.C08_uvarint_roundtrip",
    "Verif.Props.C08_uvarint_panics"
   ],
   "note": ""
  },
  {
   "property": "C09",
   "status": "proved",
   "theorems": [
    "Verif.Props.C09_varint_roundtrip",
    "Verif.Props.C09_varint_panics"
   ],
   "note": ""
  },
  {
   "property": "C10",
   "status": "proved",
   "theorems": [
    "Verif.Props.C10_uvarint_robust",
    "Verif.Props.C10_varint_robust"
   ],
   "note": ""
  },
  {
   "property": "C11",
   "status": "partial",
   "theorems": [
    "Verif.Props.C11_truncates",
    "Verif.Props.C11_violated",
    "Verif.Props.C11_narrow_partial"
   ],
   "note": "False of the code: the narrow readers truncate the 64-bit value (C11_violated gives the witness). C11_narrow_partial proves the claim for wire values in the narrow range; C11_truncates gives the result for all values (the low bits, in two's complement for the signed reads)."
  },
  {
   "property": "C12",
   "status": "proved",
   "theorems": [
    "Verif.Props.C12_flags_roundtrip",
    "Verif.Props.C12_flags_lenient",
    "Verif.Props.C12_coption_strict"
   ],
   "note": ""
  },
  {
   "property": "C13",
   "status": "proved",
   "theorems": [
    "Verif.Props.C13_reflection",
    "Verif.Props.C13_float_roundtrip",
    "Verif.Props.C13_float_nan_refused"
   ],
   "note": ""
  },
  {
   "property": "C14",
   "status": "proved",
   "theorems": [
    "Verif.Props.C14_format",
    "Verif.Props.C14_bytes_roundtrip"
   ],
   "note": ""
  },
  {
   "property": "C15",
   "status": "partial",
   "theorems": [
    "Verif.Props.C15_length",
    "Verif.Props.C15_bytes",
    "Verif.Props.C15_slice",
    "Verif.Props.C15_uints",
    "Verif.Props.C15_violated_compact",
    "Verif.Props.C15_violated_borsh",
    "Verif.Props.C15_overlong_partial"
   ],
   "note": "False of the code: the writer ignores EncodeCompactU16Length's error and wraps Borsh lengths modulo 2^32 (C15_violated_*). C15_overlong_partial proves what holds. C15_length, C15_bytes, C15_slice and C15_uints give the exact bytes for every length, and what a Borsh string so written reads back as."
  },
  {
   "property": "C16",
   "status": "proved",
   "theorems": [
    "Verif.Props.C16_rust_string",
    "Verif.Props.C16_rust_string_overlong"
   ],
   "note": ""
  },
  {
   "property": "C17",
   "status": "partial",
   "theorems": [
    "Verif.Props.C17_setPosition",
    "Verif.Props.C17_position",
    "Verif.Props.C17_skip_before",
    "Verif.Props.C17_cursor_partial",
    "Verif.Props.C17_violated"
   ],
   "note": "False for SetPosition arguments >= 2^63 (C17_violated); proved for every call sequence whose SetPosition arguments are below 2^63. C17_setPosition gives the outcome for every argument, C17_skip_before how the cursor walks on from before the start."
  },
  {
   "property": "C18",
   "status": "partial",
   "theorems": [
    "Verif.Props.C18_before",
    "Verif.Props.C18_no_panic_partial",
    "Verif.Props.C18_violated"
   ],
   "note": "False for SetPosition arguments >= 2^63 (C18_violated); proved for every call sequence whose SetPosition arguments are below 2^63. C18_before says exactly which calls panic once the cursor is before the start of the buffer (up to 2^62 before it)."
  },
  {
   "property": "C19",
   "status": "proved",
   "theorems": [
    "Verif.Props.C19_session"
   ],
   "note": ""
  },
  {
   "property": "C20",
   "status": "proved",
   "theorems": [
    "Verif.Props.C20_take",
    "Verif.Props.C20_short",
    "Verif.Props.C20_setPosition",
    "Verif.Props.C20_typeID"
   ],
   "note": ""
  },
  {
   "property": "C21",
   "status": "proved",
   "theorems": [
    "Verif.Props.C21_written"
   ],
   "note": ""
  },
  {
   "property": "C22",
   "status": "proved",
   "theorems": [
    "Verif.Props.C22_failing_writer"
   ],
   "note": ""
  },
  {
   "property": "C23",
   "status": "proved",
   "theorems": [
    "Verif.Props.C23_byteCount"
   ],
   "note": ""
  },
  {
   "property": "C24",
   "status": "proved",
   "theorems": [
    "Verif.Props.C24_bulk",
    "Verif.Props.C24_borsh_format"
   ],
   "note": ""
  },
  {
   "property": "C25",
   "status": "proved",
   "theorems": [
    "Verif.Props.C25_bin_format"
   ],
   "note": ""
  },
  {
   "property": "C26",
   "status": "proved",
   "theorems": [
    "Verif.Props.C26_compact_format"
   ],
   "note": ""
  },
  {
   "property": "C27",
   "status": "proved",
   "theorems": [
    "Verif.Props.C27_borsh_roundtrip"
   ],
   "note": ""
  },
  {
   "property": "C28",
   "status": "proved",
   "theorems": [
    "Verif.Props.C28_bin_roundtrip"
   ],
   "note": ""
  },
  {
   "property": "C29",
   "status": "proved",
   "theorems": [
    "Verif.Props.C29_compact_roundtrip"
   ],
   "note": ""
  },
  {
   "property": "C30",
   "status": "proved",
   "theorems": [
    "Verif.Props.C30_sequence",
    "Verif.Props.C30_unambiguous"
   ],
   "note": ""
  },
  {
   "property": "C31",
   "status": "proved",
   "theorems": [
    "Verif.Props.C31_map_order",
    "Verif.Props.C31_ascending",
    "Verif.Props.C31_bin_depends"
   ],
   "note": ""
  },
  {
   "property": "C32",
   "status": "proved",
   "theorems": [
    "Verif.Props.C32_truncated"
   ],
   "note": ""
  },
  {
   "property": "C33",
   "status": "proved",
   "theorems": [
    "Verif.Props.C33_no_panic",
    "Verif.Props.C33_unmarshal",
    "Verif.Props.C33_needed"
   ],
   "note": ""
  },
  {
   "property": "C34",
   "status": "proved",
   "theorems": [
    "Verif.Props.C34_local"
   ],
   "note": ""
  },
  {
   "property": "C35",
   "status": "proved",
   "theorems": [
    "Verif.Props.C35_checked",
    "Verif.Props.C35_declared",
    "Verif.Props.C35_bounded"
   ],
   "note": ""
  },
  {
   "property": "C36",
   "status": "partial",
   "theorems": [
    "Verif.Props.C36_kept_partial",
    "Verif.Props.C36_overwrites_partial",
    "Verif.Props.C36_violated"
   ],
   "note": "False: empty maps, empty Borsh slices and Borsh enum payloads keep old content (C36_violated). C36_kept_partial says exactly which places matter, C36_overwrites_partial proves the full claim for types without them."
  },
  {
   "property": "C37",
   "status": "partial",
   "theorems": [
    "Verif.Props.C37_encode_partial",
    "Verif.Props.C37_decode",
    "Verif.Props.C37_violated"
   ],
   "note": "False in full: an unexported sizeof field and a skipped field inside an optional struct influence the bytes (C37_violated). Proved outside those two situations."
  },
  {
   "property": "C38",
   "status": "proved",
   "theorems": [
    "Verif.Props.C38_format",
    "Verif.Props.C38_zero",
    "Verif.Props.C38_flag",
    "Verif.Props.C38_absent",
    "Verif.Props.C38_roundtrip"
   ],
   "note": ""
  },
  {
   "property": "C39",
   "status": "proved",
   "theorems": [
    "Verif.Props.C39_format",
    "Verif.Props.C39_absent",
    "Verif.Props.C39_rejects",
    "Verif.Props.C39_roundtrip"
   ],
   "note": ""
  },
  {
   "property": "C40",
   "status": "partial",
   "theorems": [
    "Verif.Props.C40_announces",
    "Verif.Props.C40_latest",
    "Verif.Props.C40_anywhere",
    "Verif.Props.C40_any_format",
    "Verif.Props.C40_any_roundtrip",
    "Verif.Props.C40_violated_library",
    "Verif.Props.C40_violated_pointer",
    "Verif.Props.C40_format",
    "Verif.Props.C40_count",
    "Verif.Props.C40_roundtrip",
    "Verif.Props.C40_violated"
   ],
   "note": "False for negative counters and counters beyond int (C40_violated) and for library-typed counters in Borsh (C40_violated_library) and pointers to slices in Borsh (C40_violated_pointer); proved for all others, anywhere in a struct."
  },
  {
   "property": "C41",
   "status": "proved",
   "theorems": [
    "Verif.Props.C41_older",
    "Verif.Props.C41_older_data",
    "Verif.Props.C41_newer"
   ],
   "note": ""
  },
  {
   "property": "C42",
   "status": "partial",
   "theorems": [
    "Verif.Props.C42_enum",
    "Verif.Props.C42_fields",
    "Verif.Props.C42_format_partial",
    "Verif.Props.C42_roundtrip_partial",
    "Verif.Props.C42_encode_rejects",
    "Verif.Props.C42_decode_rejects",
    "Verif.Props.C42_violated",
    "Verif.Props.C42_violated_kinds",
    "Verif.Props.C42_untagged",
    "Verif.Props.C42_position",
    "Verif.Props.C42_unwritten"
   ],
   "note": "False for slice, array, map and varint payloads (C42_violated); proved for all other payload types. C42_unwritten gives the exact output for slices, arrays, maps and pointers to them: the tag alone."
  },
  {
   "property": "C43",
   "status": "partial",
   "theorems": [
    "Verif.Props.C43_library",
    "Verif.Props.C43_direct",
    "Verif.Props.C43_isLibrary",
    "Verif.Props.C43_ignores_tags",
    "Verif.Props.C43_flag_ignored",
    "Verif.Props.C43_pointer_partial",
    "Verif.Props.C43_violated"
   ],
   "note": "False: optional library-type fields panic (Bin, CompactU16) or lose the flag (Borsh) (C43_violated). Proved for optional pointers to library types in Bin and CompactU16. C43_ignores_tags and C43_flag_ignored: the Borsh decoder treats every field of a library type, or pointer to one, as if it carried no optional, coption, order or sizeof tag."
  },
  {
   "property": "C44",
   "status": "partial",
   "theorems": [
    "Verif.Props.C44_order_ignored",
    "Verif.Props.C44_format_partial",
    "Verif.Props.C44_roundtrip_partial",
    "Verif.Props.C44_violated"
   ],
   "note": "False in Borsh for library types (C44_violated); proved for Bin and CompactU16. C44_order_ignored: in Borsh the order tag of a library field changes nothing when decoding."
  },
  {
   "property": "C45",
   "status": "proved",
   "theorems": [
    "Verif.Props.C45_bytes",
    "Verif.Props.C45_equal",
    "Verif.Props.C45_uint8",
    "Verif.Props.C45_uint32",
    "Verif.Props.C45_uvarint32",
    "Verif.Props.C45_methods"
   ],
   "note": ""
  },
  {
   "property": "C46",
   "status": "partial",
   "theorems": [
    "Verif.Props.C46_refused",
    "Verif.Props.C46_shared",
    "Verif.Props.C46_low_bits",
    "Verif.Props.C46_typeID_partial",
    "Verif.Props.C46_select_partial",
    "Verif.Props.C46_assign_partial",
    "Verif.Props.C46_unnamed_partial",
    "Verif.Props.C46_unknown_partial",
    "Verif.Props.C46_roundtrip_partial",
    "Verif.Props.C46_violated"
   ],
   "note": "False beyond 256 types with Uint8 ids and for uvarint32 wire ids of 2^32 and more (C46_violated); proved otherwise for every id encoding. C46_shared covers any number of types: ids wrap and a wire id selects the last of the types that share it; C46_low_bits: only the low 32 bits of a uvarint32 wire id count."
  },
  {
   "property": "C47",
   "status": "proved",
   "theorems": [
    "Verif.Props.C47_hex",
    "Verif.Props.C47_bytes",
    "Verif.Props.C47_bigInt",
    "Verif.Props.C47_int128"
   ],
   "note": ""
  },
  {
   "property": "C48",
   "status": "partial",
   "theorems": [
    "Verif.Props.C48_big_endian",
    "Verif.Props.C48_format",
    "Verif.Props.C48_uint128_partial",
    "Verif.Props.C48_int128",
    "Verif.Props.C48_violated"
   ],
   "note": "False for a big-endian Uint128 receiver and for the hex form (C48_violated). Proved for nil/little-endian receivers, and for Int128. C48_big_endian: a big-endian receiver gets the sixteen bytes reversed, for every number."
  },
  {
   "property": "C49",
   "status": "proved",
   "theorems": [
    "Verif.Props.C49_int64_roundtrip",
    "Verif.Props.C49_uint64_roundtrip",
    "Verif.Props.C49_int64_format",
    "Verif.Props.C49_uint64_format"
   ],
   "note": ""
  },
  {
   "property": "C50",
   "status": "proved",
   "theorems": [
    "Verif.Props.C50_exact",
    "Verif.Props.C50_chars",
    "Verif.Props.C50_letters",
    "Verif.Props.C50_underscores",
    "Verif.Props.C50_idempotent",
    "Verif.Props.C50_as_written",
    "Verif.Props.C50_reader"
   ],
   "note": ""
  },
  {
   "property": "C51",
   "status": "proved",
   "theorems": [
    "Verif.Props.C51_exact",
    "Verif.Props.C51_chars",
    "Verif.Props.C51_start",
    "Verif.Props.C51_letters",
    "Verif.Props.C51_as_written",
    "Verif.Props.C51_reader"
   ],
   "note": ""
  },
  {
   "property": "C52",
   "status": "proved",
   "theorems": [
    "Verif.Props.C52_hash32",
    "Verif.Props.C52_vectors",
    "Verif.Props.C52_prefix",
    "Verif.Props.C52_string",
    "Verif.Props.C52_typeID",
    "Verif.Props.C52_instruction",
    "Verif.Props.C52_account",
    "Verif.Props.C52_respelling",
    "Verif.Props.C52_snake_form"
   ],
   "note": ""
  },
  {
   "property": "C53",
   "status": "proved",
   "theorems": [
    "Verif.Props.C53_flags",
    "Verif.Props.C53_order",
    "Verif.Props.C53_sizeof",
    "Verif.Props.C53_unknown",
    "Verif.Props.C53_none"
   ],
   "note": ""
  },
  {
   "property": "C54",
   "status": "partial",
   "theorems": [
    "Verif.Props.C54_current",
    "Verif.Props.C54_bytes_partial",
    "Verif.Props.C54_chunking",
    "Verif.Props.C54_violated"
   ],
   "note": "False when the caller reuses its buffer, because the recorder keeps the caller's slices (C54_violated). Proved when it does not. C54_current: in every case Bytes() is what the slices handed to Write hold when it is called."
  },
  {
   "property": "C55",
   "status": "proved",
   "theorems": [
    "Verif.Props.C55_reverses",
    "Verif.Props.C55_involution"
   ],
   "note": ""
  },
  {
   "property": "C56",
   "status": "partial",
   "theorems": [
    "Verif.Props.C56_readNBytes_value",
    "Verif.Props.C56_window",
    "Verif.Props.C56_peek",
    "Verif.Props.C56_readByteSlice",
    "Verif.Props.C56_violated",
    "Verif.Props.C56_violated_append",
    "Verif.Props.C56_violated_slice",
    "Verif.Props.C56_read_partial"
   ],
   "note": "False: decoded byte slices are windows on the input (C56_window, C56_violated). C56_read_partial proves isolation for Read."
  },
  {
   "property": "C57",
   "status": "partial",
   "theorems": [
    "Verif.Props.C57_nothing",
    "Verif.Props.C57_borsh_partial",
    "Verif.Props.C57_violated"
   ],
   "note": "False in Bin and CompactU16, and in Borsh for pointers to library types (C57_violated). C57_borsh_partial proves the rest of Borsh. C57_nothing: in Bin and CompactU16 a nil pointer field writes nothing, as if skipped, in every struct."
  },
  {
   "property": "C58",
   "status": "partial",
   "theorems": [
    "Verif.Props.C58_iff",
    "Verif.Props.C58_violated",
    "Verif.Props.C58_followed_partial"
   ],
   "note": "False for zero-size elements at the end of the buffer (C58_violated). C58_iff: such a slice comes back exactly when as many bytes follow as it has elements."
  },
  {
   "property": "C59",
   "status": "proved",
   "theorems": [
    "Verif.Props.C59_format",
    "Verif.Props.C59_roundtrip"
   ],
   "note": ""
  },
  {
   "property": "C60",
   "status": "proved",
   "theorems": [
    "Verif.Props.C60_reset"
   ],
   "note": ""
  },
  {
   "property": "C61",
   "status": "proved",
   "theorems": [
    "Verif.Props.C61_format",
    "Verif.Props.C61_injective"
   ],
   "note": ""
  },
  {
   "property": "C62",
   "status": "partial",
   "theorems": [
    "Verif.Props.C62_roundtrip_partial",
    "Verif.Props.C62_violated"
   ],
   "note": "False for JSONFloat64, Int64 and Uint64 outside a struct field: their methods panic (C62_violated). Proved for every type and value inside a field, and for the other types outside."
  },
  {
   "property": "C63",
   "status": "proved",
   "theorems": [
    "Verif.Props.C63_pascal_snake",
    "Verif.Props.C63_same",
    "Verif.Props.C63_converse_fails"
   ],
   "note": ""
  },
  {
   "property": "C64",
   "status": "proved",
   "theorems": [
    "Verif.Props.C64_total",
    "Verif.Props.C64_reader"
   ],
   "note": ""
  },
  {
   "property": "C65",
   "status": "partial",
   "theorems": [
    "Verif.Props.C65_ascii_partial",
    "Verif.Props.C65_violated",
    "Verif.Props.C65_snake_partial",
    "Verif.Props.C65_pascal_partial",
    "Verif.Props.C65_words"
   ],
   "note": "False: rune indices are used as byte indices, multi-byte letters are destroyed (C65_violated). C65_ascii_partial proves the ASCII part; C65_snake_partial and C65_pascal_partial prove it for any code points without upper-case letters."
  },
  {
   "property": "C66",
   "status": "proved",
   "theorems": [
    "Verif.Props.C66_injective",
    "Verif.Props.C66_format"
   ],
   "note": ""
  },
  {
   "property": "C67",
   "status": "proved",
   "theorems": [
    "Verif.Props.C67_repair",
    "Verif.Props.C67_valid",
    "Verif.Props.C67_unique",
    "Verif.Props.C67_idempotent"
   ],
   "note": ""
  },
  {
   "property": "C68",
   "status": "proved",
   "theorems": [
    "Verif.Props.C68_int64",
    "Verif.Props.C68_uint64",
    "Verif.Props.C68_uint64_quoted",
    "Verif.Props.C68_int64_quoted",
    "Verif.Props.C68_bool",
    "Verif.Props.C68_hex",
    "Verif.Props.C68_no_panic",
    "Verif.Props.C68_int64_string",
    "Verif.Props.C68_uint64_string",
    "Verif.Props.C68_hex_string"
   ],
   "note": ""
  },
  {
   "property": "C69",
   "status": "partial",
   "theorems": [
    "Verif.Props.C69_decimalString",
    "Verif.Props.C69_int128_string_partial",
    "Verif.Props.C69_violated"
   ],
   "note": "False for negative Int128: String and MarshalJSON print the unsigned value (C69_violated). Proved for Uint128, for DecimalString and for non-negative Int128."
  },
  {
   "property": "C70",
   "status": "partial",
   "theorems": [
    "Verif.Props.C70_range_partial",
    "Verif.Props.C70_violated"
   ],
   "note": "False: numbers from 2^128 on panic, the minus sign is dropped, a leading zero means octal (C70_violated). C70_range_partial proves it for texts without leading zero of numbers below 2^128 (receiver not big-endian)."
  },
  {
   "property": "C71",
   "status": "proved",
   "theorems": [
    "Verif.Props.C71_length",
    "Verif.Props.C71_byteSlice",
    "Verif.Props.C71_rustString",
    "Verif.Props.C71_refused",
    "Verif.Props.C71_safe"
   ],
   "note": ""
  },
  {
   "property": "C72",
   "status": "proved",
   "theorems": [
    "Verif.Props.C72_canonical",
    "Verif.Props.C72_unique"
   ],
   "note": ""
  },
  {
   "property": "C73",
   "status": "partial",
   "theorems": [
    "Verif.Props.C73_no_panic_partial",
    "Verif.Props.C73_marshal_partial",
    "Verif.Props.C73_violated_keys",
    "Verif.Props.C73_violated_nan",
    "Verif.Props.C73_violated_nil",
    "Verif.Props.C73_violated_sizeof"
   ],
   "note": "False: Encode panics on Borsh maps with keys that cannot be ordered (e.g. defined 64-bit integer types), on NaN map keys and nil pointers to library types in Bin and CompactU16, and on sizeof counters larger than the slice (C73_violated_*). C73_no_panic_partial proves it for all other values (Spec.Calm), errors and failing writers included."
  },
  {
   "property": "C74",
   "status": "proved",
   "theorems": [
    "Verif.Props.C74_restores",
    "Verif.Props.C74_condition_needed",
    "Verif.Props.C74_keys_needed"
   ],
   "note": ""
  },
  {
   "property": "C75",
   "status": "proved",
   "theorems": [
    "Verif.Props.C75_settles",
    "Verif.Props.C75_decoded_needed"
   ],
   "note": ""
  },
  {
   "property": "C76",
   "status": "proved",
   "theorems": [
    "Verif.Props.C76_same",
    "Verif.Props.C76_fields",
    "Verif.Props.C76_slice",
    "Verif.Props.C76_enum",
    "Verif.Props.C76_reusable",
    "Verif.Props.C76_flags",
    "Verif.Props.C76_map",
    "Verif.Props.C76_elements",
    "Verif.Props.C76_array",
    "Verif.Props.C76_pointer"
   ],
   "note": ""
  },
  {
   "property": "C77",
   "status": "partial",
   "theorems": [
    "Verif.Props.C77_violated",
    "Verif.Props.C77_kept_partial",
    "Verif.Props.C77_scalar_partial"
   ],
   "note": "False: a scalar that cannot be read becomes zero and the fields before the failing one are overwritten (C77_violated). C77_kept_partial: strings, library types, slices and arrays of unsigned integers are kept. C77_scalar_partial: scalars become zero. C76 says what structs, slices and enums hold."
  },
  {
   "property": "C78",
   "status": "proved",
   "theorems": [
    "Verif.Props.C78_map",
    "Verif.Props.C78_accepted",
    "Verif.Props.C78_equal",
    "Verif.Props.C78_keys"
   ],
   "note": ""
  },
  {
   "property": "C79",
   "status": "partial",
   "theorems": [
    "Verif.Props.C79_slice_partial",
    "Verif.Props.C79_array_partial",
    "Verif.Props.C79_violated"
   ],
   "note": "False for slices and arrays of the library's Varuint16, Varuint32 and Uint64: the bulk path for unsigned integer kinds reads fixed-width elements and ignores UnmarshalWithDecoder, so a []Varuint32 holds no varints (C79_violated). C79_slice_partial and C79_array_partial prove it for all other element types (inputs below 2 GiB)."
  },
  {
   "property": "C80",
   "status": "proved",
   "theorems": [
    "Verif.Props.C80_accepted",
    "Verif.Props.C80_panics",
    "Verif.Props.C80_int128"
   ],
   "note": ""
  },
  {
   "property": "C81",
   "status": "partial",
   "theorems": [
    "Verif.Props.C81_arguments_partial",
    "Verif.Props.C81_violated"
   ],
   "note": "False for nil pointers: Decode((*T)(nil)) panics (C81_violated, all decoder states). C81_arguments_partial proves the rest: non-pointers and nil are refused without reading, Encode(nil) writes nothing."
  },
  {
   "property": "C82",
   "status": "proved",
   "theorems": [
    "Verif.Props.C82_names",
    "Verif.Props.C82_constructors",
    "Verif.Props.C82_setEncoding"
   ],
   "note": ""
  },
  {
   "property": "C83",
   "status": "proved",
   "theorems": [
    "Verif.Props.C83_decode",
    "Verif.Props.C83_floats",
    "Verif.Props.C83_encode"
   ],
   "note": ""
  },
  {
   "property": "C84",
   "status": "proved",
   "theorems": [
    "Verif.Props.C84_get",
    "Verif.Props.C84_options",
    "Verif.Props.C84_others",
    "Verif.Props.C84_plain"
   ],
   "note": ""
  },
  {
   "property": "C85",
   "status": "proved",
   "theorems": [
    "Verif.Props.C85_struct",
    "Verif.Props.C85_pointer",
    "Verif.Props.C85_enum"
   ],
   "note": ""
  },
  {
   "property": "C86",
   "status": "partial",
   "theorems": [
    "Verif.Props.C86_unreadable_partial",
    "Verif.Props.C86_selected_partial",
    "Verif.Props.C86_unknown_partial",
    "Verif.Props.C86_agree_partial",
    "Verif.Props.C86_violated"
   ],
   "note": "False after some failures: TypeID is assigned before the type is looked up, and value types assign Impl only after decoding, so a used receiver can say it is a 'b' while holding the old 'a' (C86_violated). C86_agree_partial: success, and failures inside a pointer type. C86_unreadable_partial, C86_selected_partial, C86_unknown_partial describe the receiver completely in all cases."
  },
  {
   "property": "C87",
   "status": "proved",
   "theorems": [
    "Verif.Props.C87_number",
    "Verif.Props.C87_string",
    "Verif.Props.C87_value",
    "Verif.Props.C87_range",
    "Verif.Props.C87_unique",
    "Verif.Props.C87_no_panic",
    "Verif.Props.C87_needed"
   ],
   "note": ""
  },
  {
   "property": "C88",
   "status": "proved",
   "theorems": [
    "Verif.Props.C88_encode",
    "Verif.Props.C88_before_error",
    "Verif.Props.C88_many",
    "Verif.Props.C88_decode"
   ],
   "note": ""
  },
  {
   "property": "C89",
   "status": "proved",
   "theorems": [
    "Verif.Props.C89_struct",
    "Verif.Props.C89_slice",
    "Verif.Props.C89_array",
    "Verif.Props.C89_map",
    "Verif.Props.C89_pointer"
   ],
   "note": ""
  },
  {
   "property": "C90",
   "status": "partial",
   "theorems": [
    "Verif.Props.C90_encode_partial",
    "Verif.Props.C90_decode_partial",
    "Verif.Props.C90_roundtrip_partial",
    "Verif.Props.C90_list",
    "Verif.Props.C90_violated",
    "Verif.Props.C90_violated_decode"
   ],
   "note": "False in two ways: Borsh writes a nil pointer as the zero value of its element, which never ends for a type containing an untagged pointer to itself (C90_violated: every unrolling runs into its cut, one byte later each time); a struct with nothing but a pointer to itself is allocated without end by all three decoders, on any input (C90_violated_decode). C90_encode_partial, C90_decode_partial, C90_roundtrip_partial: whenever an unrolling does not run into its cut, all deeper ones do the same. C90_list: linked lists of any length. Fields that are both optional and coption are not unrolled."
  },
  {
   "property": "C91",
   "status": "partial",
   "theorems": [
    "Verif.Props.C91_int64_partial",
    "Verif.Props.C91_uint64_partial",
    "Verif.Props.C91_float_partial",
    "Verif.Props.C91_bool_partial",
    "Verif.Props.C91_decimal_partial",
    "Verif.Props.C91_uint128_partial",
    "Verif.Props.C91_violated_uint128",
    "Verif.Props.C91_int128_partial",
    "Verif.Props.C91_hex_partial",
    "Verif.Props.C91_violated"
   ],
   "note": "False of HexBytes, which holds the decoded beginning of a refused string (C91_violated; C91_hex_partial says exactly what it holds), and of Uint128, which stores sixteen hex digits in one half and then panics (C91_violated_uint128). C91_uint128_partial excludes only these strings; C91_int64_partial, C91_uint64_partial, C91_float_partial, C91_bool_partial, C91_int128_partial hold for all inputs."
  },
  {
   "property": "C92",
   "status": "partial",
   "theorems": [
    "Verif.Props.C92_work_partial",
    "Verif.Props.C92_memory_partial",
    "Verif.Props.C92_unmarshal_partial",
    "Verif.Props.C92_counted_partial",
    "Verif.Props.C92_takes_partial",
    "Verif.Props.C92_declared_partial",
    "Verif.Props.C92_violated_entries",
    "Verif.Props.C92_violated",
    "Verif.Props.C92_violated_nested"
   ],
   "note": "False for types in which map entries or slice elements may take no bytes. Maps do not compare the announced length with the bytes left: four bytes make map[struct{}]struct{} go through 2^31-1 entries (C92_violated, C92_violated_entries for all lengths and encodings). Slices do, but empty elements of nested slices count the same bytes again and again: quadratic (C92_violated_nested). For all other types C92_work_partial, C92_memory_partial and C92_unmarshal_partial prove the claim; C92_declared_partial and C92_takes_partial read the condition off the declaration. C92_counted_partial bounds the counter from below for all types, so it cannot leave work out. Proving the full claim would require the code to check map lengths and to refuse empty elements."
  },
  {
   "property": "C93",
   "status": "proved",
   "theorems": [
    "Verif.Props.C93_encode",
    "Verif.Props.C93_decode",
    "Verif.Props.C93_interchange",
    "Verif.Props.C93_sound",
    "Verif.Props.C93_lengths_needed",
    "Verif.Props.C93_option_needed",
    "Verif.Props.C93_borsh_needed"
   ],
   "note": ""
  },
  {
   "property": "C94",
   "status": "partial",
   "theorems": [
    "Verif.Props.C94_encode",
    "Verif.Props.C94_nil_library",
    "Verif.Props.C94_decode_pointer",
    "Verif.Props.C94_decode_kept",
    "Verif.Props.C94_encode_fields",
    "Verif.Props.C94_decode_fields",
    "Verif.Props.C94_flags",
    "Verif.Props.C94_coption_absent",
    "Verif.Props.C94_coption_present",
    "Verif.Props.C94_both_absent",
    "Verif.Props.C94_both_library",
    "Verif.Props.C94_sizeof_decode",
    "Verif.Props.C94_optional",
    "Verif.Props.C94_absent",
    "Verif.Props.C94_absent_inner",
    "Verif.Props.C94_present",
    "Verif.Props.C94_sizeof",
    "Verif.Props.C94_slice",
    "Verif.Props.C94_slice_decode",
    "Verif.Props.C94_violated",
    "Verif.Props.C94_roundtrip_partial",
    "Verif.Props.C94_roundtrip_fields_partial"
   ],
   "note": "False: C94_violated has a pointer to uint8 that writes nothing and cannot be read, a Uint64 that is written and not read, and slices. The theorems give the exact behaviour: C94_encode, C94_encode_fields, C94_slice say which bytes are written for every content, C94_decode_pointer, C94_decode_kept, C94_decode_fields, C94_slice_decode what is read, C94_flags (encoding, any combination), C94_optional, C94_absent, C94_present, C94_coption_absent, C94_coption_present, C94_both_absent the flags, C94_nil_library, C94_sizeof, C94_sizeof_decode, C94_both_library the panics. Pointers to library types come back (C94_roundtrip_partial, C94_roundtrip_fields_partial). Maps with interface values and interfaces with methods are not modelled."
  },
  {
   "property": "C95",
   "status": "partial",
   "theorems": [
    "Verif.Props.C95_like_library",
    "Verif.Props.C95_encode_partial",
    "Verif.Props.C95_decode_partial",
    "Verif.Props.C95_roundtrip_partial",
    "Verif.Props.C95_pointer_receiver",
    "Verif.Props.C95_bulk",
    "Verif.Props.C95_positions_partial",
    "Verif.Props.C95_behind_pointer_partial",
    "Verif.Props.C95_field_partial",
    "Verif.Props.C95_closed_partial",
    "Verif.Props.C95_optional_pointer_partial",
    "Verif.Props.C95_payload",
    "Verif.Props.C95_optional",
    "Verif.Props.C95_optional_pointer_borsh",
    "Verif.Props.C95_nil",
    "Verif.Props.C95_embedded",
    "Verif.Props.C95_embedded_pointer",
    "Verif.Props.C95_failure",
    "Verif.Props.C95_violated"
   ],
   "note": "False: C95_violated has a method with pointer receiver that is not called for a value, elements of a uint16 kind and the payload of a Borsh enum that are written without the method, and an optional field that cannot be decoded. C95_encode_partial and C95_decode_partial give what is written and read for every type, method and value; C95_closed_partial proves that values come back that are put together from values of types with agreeing methods by pointers, arrays, slices, maps and structs, C95_optional_pointer_partial the same for optional pointers in Bin and CompactU16; C95_payload, C95_bulk, C95_optional, C95_optional_pointer_borsh, C95_nil, C95_pointer_receiver, C95_embedded and C95_embedded_pointer give the exact behaviour elsewhere."
  },
  {
   "property": "C96",
   "status": "partial",
   "theorems": [
    "Verif.Props.C96_encode_same",
    "Verif.Props.C96_decode_same",
    "Verif.Props.C96_encode_path",
    "Verif.Props.C96_decode_path_partial",
    "Verif.Props.C96_first",
    "Verif.Props.C96_split",
    "Verif.Props.C96_inner",
    "Verif.Props.C96_first_decode_partial",
    "Verif.Props.C96_unnamed",
    "Verif.Props.C96_split_decode",
    "Verif.Props.C96_inner_decode",
    "Verif.Props.C96_violated",
    "Verif.Props.C96_variants"
   ],
   "note": "False for decoding: C96_violated has Borsh structs with a field of type Uint64 and *Uint64 whose errors have no name. Encoding is proved in full (C96_encode_path, C96_first, C96_split, C96_inner, C96_variants). For decoding C96_decode_path_partial and C96_first_decode_partial leave out Borsh fields of library types, C96_split_decode and C96_inner_decode have no exception, and C96_unnamed says what happens for the excluded fields."
  },
  {
   "property": "C97",
   "status": "partial",
   "theorems": [
    "Verif.Props.C97_encode",
    "Verif.Props.C97_decode_partial",
    "Verif.Props.C97_hidden",
    "Verif.Props.C97_violated",
    "Verif.Props.C97_flag",
    "Verif.Props.C97_variant_same",
    "Verif.Props.C97_variant"
   ],
   "note": "False for decoding: C97_violated. Encoding is proved in full (C97_encode); C97_decode_partial proves decoding for the types made without HexBytes, Varint16, Varuint16, Varuint32, Float128 and presence flags; C97_hidden and C97_flag say that the cause is lost for the others, C97_variant that variants lose every cause but the unknown type."
  },
  {
   "property": "C98",
   "status": "partial",
   "theorems": [
    "Verif.Props.C98_std",
    "Verif.Props.C98_inverse",
    "Verif.Props.C98_uints_partial",
    "Verif.Props.C98_ints_partial",
    "Verif.Props.C98_floats_partial",
    "Verif.Props.C98_128",
    "Verif.Props.C98_native",
    "Verif.Props.C98_violated",
    "Verif.Props.C98_nil_writes",
    "Verif.Props.C98_nil_reads",
    "Verif.Props.C98_own_reads",
    "Verif.Props.C98_own_writes",
    "Verif.Props.C98_marshal"
   ],
   "note": "False: C98_violated. 128-bit calls compare the order with the two constants, so binary.NativeEndian cannot be written and is read with exchanged words (C98_128 for every such order, C98_native on every input); ReadUint64 with a nil order moves the cursor and then panics. C98_uints_partial, C98_ints_partial and C98_floats_partial prove the rest; C98_nil_reads and C98_nil_writes say exactly what nil does. C98_own_reads and C98_own_writes do the same for an order with the caller's own methods, panicking ones included."
  },
  {
   "property": "C99",
   "status": "partial",
   "theorems": [
    "Verif.Props.C99_off",
    "Verif.Props.C99_borsh_partial",
    "Verif.Props.C99_mapless_partial",
    "Verif.Props.C99_same_or_panic",
    "Verif.Props.C99_logger",
    "Verif.Props.C99_exact",
    "Verif.Props.C99_map",
    "Verif.Props.C99_violated"
   ],
   "note": "False: C99_violated. In Bin and CompactU16 the trace line for maps calls rv.Elem() on the map, which panics. C99_off, C99_borsh_partial and C99_mapless_partial prove the claim without tracing, in Borsh, and for types without maps; C99_same_or_panic says that tracing can only cut a call short by a panic, C99_exact exactly for which values it does (given that the call returns without tracing), C99_map that every map panics before its prefix, C99_logger that the logger is restored in all cases."
  },
  {
   "property": "C100",
   "status": "partial",
   "theorems": [
    "Verif.Props.C100_prefix",
    "Verif.Props.C100_complete",
    "Verif.Props.C100_encode",
    "Verif.Props.C100_failed",
    "Verif.Props.C100_written",
    "Verif.Props.C100_write",
    "Verif.Props.C100_violated",
    "Verif.Props.C100_contract_needed"
   ],
   "note": "False for Written: C100_violated. toWriter adds the length of the chunk before it calls the writer, so that after a failure Written includes the part that was not taken (C100_failed says exactly how much, C100_written bounds it for every writer and every sequence of calls). The rest is proved for all sequences of calls up to the first failure: C100_prefix, C100_complete, C100_encode, C100_write. C100_contract_needed shows that short writes without an error go unnoticed."
  },
  {
   "property": "C101",
   "status": "partial",
   "theorems": [
    "Verif.Props.C101_unfinished",
    "Verif.Props.C101_run",
    "Verif.Props.C101_ok",
    "Verif.Props.C101_error",
    "Verif.Props.C101_three",
    "Verif.Props.C101_truncated",
    "Verif.Props.C101_violated"
   ],
   "note": "False for the end of the input: C101_violated, C101_truncated (io.EOF for every input that is cut off). C101_run, C101_ok, C101_error, C101_three and C101_unfinished prove the rest for every reader."
  },
  {
   "property": "C102",
   "status": "partial",
   "theorems": [
    "Verif.Props.C102_held",
    "Verif.Props.C102_map",
    "Verif.Props.C102_order",
    "Verif.Props.C102_slice",
    "Verif.Props.C102_decoded",
    "Verif.Props.C102_trip_partial",
    "Verif.Props.C102_one",
    "Verif.Props.C102_violated"
   ],
   "note": "False: C102_violated. C102_held, C102_map, C102_order and C102_slice give what is written, failures included. The decoders do not look into interfaces: C102_decoded says that from any bytes all the interfaces come out nil, C102_one that the value of a single entry is left unread, and C102_violated is a map with two entries that comes back with a key it did not have. C102_trip_partial has the maps that do come back: those whose values are written as no bytes."
  },
  {
   "property": "C103",
   "status": "proved",
   "theorems": [
    "Verif.Props.C103_encode_failed",
    "Verif.Props.C103_encode",
    "Verif.Props.C103_decode",
    "Verif.Props.C103_trip",
    "Verif.Props.C103_nested",
    "Verif.Props.C103_variant_encode",
    "Verif.Props.C103_variant_decode"
   ],
   "note": "The struct is the value given to Encode or Decode, not an element of something else: C103_nested shows a slice that the older version misreads without an error. C41 has the case of extension fields, where the newer version also reads what the older one wrote."
  },
  {
   "property": "C104",
   "status": "partial",
   "theorems": [
    "Verif.Props.C104_read",
    "Verif.Props.C104_full_partial",
    "Verif.Props.C104_full_promise",
    "Verif.Props.C104_contract",
    "Verif.Props.C104_dishonest",
    "Verif.Props.C104_violated",
    "Verif.Props.C104_small",
    "Verif.Props.C104_limited_partial",
    "Verif.Props.C104_copy",
    "Verif.Props.C104_copyN_partial",
    "Verif.Props.C104_copyN_promise",
    "Verif.Props.C104_copyN_short",
    "Verif.Props.C104_uvarint",
    "Verif.Props.C104_uvarint_short",
    "Verif.Props.C104_compact"
   ],
   "note": "False for io.ReadAll and io.Copy: Read fills the whole buffer or returns io.ErrShortBuffer, and never io.EOF. C104_violated: io.ReadAll fails on every decoder, also on an empty one, whatever sizes its buffer grows through, and which bytes it returns; C104_copy: io.Copy writes whole buffers only and fails; C104_small: below 512 bytes nothing is returned. C104_contract shows that io.ReadAll works for readers that keep to the documentation, C104_dishonest that the decoder does not. C104_full_partial, C104_limited_partial, C104_copyN_partial, C104_uvarint, C104_uvarint_short and C104_compact prove the rest; C104_full_promise states what io.ReadFull promises for every reader. Readers such as bufio.Reader are not modelled."
  },
  {
   "property": "C105",
   "status": "proved",
   "theorems": [
    "Verif.Props.C105_elsewhere",
    "Verif.Props.C105_old_content",
    "Verif.Props.C105_same_pointer",
    "Verif.Props.C105_unshared",
    "Verif.Props.C105_shared",
    "Verif.Props.C105_absent",
    "Verif.Props.C105_borsh_pointer",
    "Verif.Props.C105_sharing_matters"
   ],
   "note": "C105_elsewhere and C105_old_content hold for any sharing. C105_unshared has the condition on sharing; C105_sharing_matters shows what happens without it, and C105_shared says exactly what two fields that lead to one variable hold afterwards. C105_borsh_pointer: Borsh fields that point to library types get new variables. Pointers into the middle of a variable and cyclic destinations are not modelled."
  },
  {
   "property": "C106",
   "status": "proved",
   "theorems": [
    "Verif.Props.C106_uvarint64",
    "Verif.Props.C106_varint64",
    "Verif.Props.C106_varint32",
    "Verif.Props.C106_uvarint32",
    "Verif.Props.C106_varint16",
    "Verif.Props.C106_uvarint16",
    "Verif.Props.C106_byte",
    "Verif.Props.C106_uint8",
    "Verif.Props.C106_int8",
    "Verif.Props.C106_bool",
    "Verif.Props.C106_option",
    "Verif.Props.C106_uint16",
    "Verif.Props.C106_uint32",
    "Verif.Props.C106_int16",
    "Verif.Props.C106_int32",
    "Verif.Props.C106_coption",
    "Verif.Props.C106_nbytes",
    "Verif.Props.C106_uint64",
    "Verif.Props.C106_int64",
    "Verif.Props.C106_uint128",
    "Verif.Props.C106_int128",
    "Verif.Props.C106_float128",
    "Verif.Props.C106_float32",
    "Verif.Props.C106_float64",
    "Verif.Props.C106_decode_compact",
    "Verif.Props.C106_compact",
    "Verif.Props.C106_length",
    "Verif.Props.C106_byteSlice",
    "Verif.Props.C106_string",
    "Verif.Props.C106_safeString",
    "Verif.Props.C106_rustString",
    "Verif.Props.C106_peek",
    "Verif.Props.C106_typeID",
    "Verif.Props.C106_peekDiscriminator",
    "Verif.Props.C106_read",
    "Verif.Props.C106_byte_reader"
   ],
   "note": "The reads are modelled a second time with both results (Model/Returns); each theorem says that this version does what the version with one outcome does and returns the given zero value with every error. The buffer of the decoder is taken to be not nil (Peek(0) on a decoder over nil returns nil)."
  },
  {
   "property": "C107",
   "status": "partial",
   "theorems": [
    "Verif.Props.C107_off",
    "Verif.Props.C107_result",
    "Verif.Props.C107_prefix",
    "Verif.Props.C107_turns_partial",
    "Verif.Props.C107_off_schedule",
    "Verif.Props.C107_violated",
    "Verif.Props.C107_grows"
   ],
   "note": "False with tracing: C107_violated. Arrays, slices and maps rename the package logger (zlog = zlog.Named(...)) and a deferred function stores the old one back; two calls that overlap leave the other's name behind, and C107_grows shows that the name gets longer without bound. C107_off and C107_off_schedule prove the claim without tracing. With tracing, C107_result proves results and bytes, C107_prefix that the name only ever gets longer than before, C107_turns_partial that calls which do not overlap restore it. Loads and stores of the variable are taken to be indivisible; for Go they are a data race."
  },
  {
   "property": "C108",
   "status": "proved",
   "theorems": [
    "Verif.Props.C108_same_reads",
    "Verif.Props.C108_same_decode",
    "Verif.Props.C108_reads",
    "Verif.Props.C108_program",
    "Verif.Props.C108_decode",
    "Verif.Props.C108_words",
    "Verif.Props.C108_words_bytes",
    "Verif.Props.C108_peek",
    "Verif.Props.C108_skip"
   ],
   "note": "The reads and Decode are modelled once more with the numbers in their messages (Model/Messages); C108_same_reads and C108_same_decode say that they are the reads and decode of the rest of the model. Examples beside the theorems show that the conditions are needed: with a binary_extension field inside a slice the number can stay the same when a byte is added, and with the cursor before the buffer (SetPosition) it counts from there."
  },
  {
   "property": "C109",
   "status": "proved",
   "theorems": [
    "Verif.Props.C109_value",
    "Verif.Props.C109_sharing",
    "Verif.Props.C109_copy",
    "Verif.Props.C109_independent",
    "Verif.Props.C109_cycle_endless",
    "Verif.Props.C109_cycle",
    "Verif.Props.C109_sharing_lost"
   ],
   "note": "Model/HeapEncode is the encoder on the memory of Model/Heap, with Spec.Shows (Tree without the condition on sharing) saying which value a variable shows. C109_value: the outcome, the bytes and the Write calls are those for the value shown. C109_copy puts it together with the round trip (C27-C30) and C105. C109_cycle is about one linked-list type, whose unrollings (C90) are all exhausted; that the heap is not changed holds by construction, the heap is a parameter of the encoder. C109_sharing_lost: two pointers to one variable come back as two variables."
  },
  {
   "property": "C110",
   "status": "proved",
   "theorems": [
    "Verif.Props.C110_same_bytes",
    "Verif.Props.C110_read_as",
    "Verif.Props.C110_embedded",
    "Verif.Props.C110_pairs",
    "Verif.Props.C110_option",
    "Verif.Props.C110_strings",
    "Verif.Props.C110_varint_array",
    "Verif.Props.C110_borsh_order",
    "Verif.Props.C110_nil"
   ],
   "note": "The relation Spec.SameLayout has one rule per kind of difference, with reflexivity, symmetry, transitivity and congruence for slices, arrays and struct fields; no bytes occur in it. The conditions of the rules are the exceptions of the code: C110_strings (SafeString and string differ in Bin), C110_varint_array (a Varuint16 in an array is not a varint), C110_borsh_order (Int64 obeys a byte-order tag in Borsh, int64 does not), C110_nil (nil pointers outside Borsh). The values must be encodable, and for reading supported (C27-C30), in their own type: the rules compare layouts, not ranges."
  },
  {
   "property": "C111",
   "status": "proved",
   "theorems": [
    "Verif.Props.C111_found",
    "Verif.Props.C111_read",
    "Verif.Props.C111_replaced",
    "Verif.Props.C111_static",
    "Verif.Props.C111_filter",
    "Verif.Props.C111_optional_moves"
   ],
   "note": "Spec.Within relates a value to a part of it and to the value with the part replaced, with the offset as the sum of the sizes of what stands before; Spec.offsetOf computes it from the type where it can. Elements of slices and arrays of Varuint16 and Varuint32 are left out (they are written fixed-width there, C79), map keys too (replacing one may change the order). C111_optional_moves: behind an optional field the offset depends on the value. SetPosition refuses the end of the buffer, hence k < length in C111_read."
  },
  {
   "property": "C112",
   "status": "partial",
   "theorems": [
    "Verif.Props.C112_written_partial",
    "Verif.Props.C112_read_partial",
    "Verif.Props.C112_any_partial",
    "Verif.Props.C112_apart",
    "Verif.Props.C112_optional_value",
    "Verif.Props.C112_violated",
    "Verif.Props.C112_plain_payload",
    "Verif.Props.C112_plain_option"
   ],
   "note": "Spec.rust is the Borsh encoding from the specification at borsh.io, written without reference to the Go code; Spec.goTy and Spec.goVal give the Go counterparts. Missing: the README's own type for Option<T>, a value tagged optional, loses Some of a zero value (C112_violated, C112_optional_value says exactly when); the theorems hold with a pointer under optional instead. Enum payloads that are vectors, arrays or maps, and Option of 128-bit integers, need a struct around them (C112_plain_payload, C112_plain_option). NaN is refused by both sides. Map keys are integers and strings; sets, Result and Box are not in RTy. Spec.RVal.string is any bytes; Rust refuses what is not UTF-8, and Go does not."
  },
  {
   "property": "C113",
   "status": "proved",
   "theorems": [
    "Verif.Props.C113_sorted",
    "Verif.Props.C113_equal",
    "Verif.Props.C113_leading",
    "Verif.Props.C113_little_endian",
    "Verif.Props.C113_array",
    "Verif.Props.C113_signed",
    "Verif.Props.C113_strings"
   ],
   "note": "Spec.bytesCmp is bytes.Compare, Spec.valCmp the order of values, Spec.Sortable the types; none refers to the encoder. C113_leading is the statement for keys made of a leading group of fields and the rest. C113_little_endian, C113_array, C113_signed and C113_strings show what happens outside Sortable."
  },
  {
   "property": "C114",
   "status": "proved",
   "theorems": [
    "Verif.Props.C114_written",
    "Verif.Props.C114_fixed",
    "Verif.Props.C114_zero",
    "Verif.Props.C114_most",
    "Verif.Props.C114_read",
    "Verif.Props.C114_short",
    "Verif.Props.C114_nil_pointer",
    "Verif.Props.C114_extension",
    "Verif.Props.C114_least_read"
   ],
   "note": "Spec.least, Spec.most and Spec.Bounded compute the bounds from the declaration; the flag r says whether for reading. C114_zero and C114_most say when the bounds for writing are reached; C114_least_read (in Props/Zeroed) says so for the least size for reading; the greatest for reading is reached in the examples. C114_nil_pointer and C114_extension show where reading and writing differ."
  },
  {
   "property": "C115",
   "status": "proved",
   "theorems": [
    "Verif.Props.C115_written",
    "Verif.Props.C115_read",
    "Verif.Props.C115_short",
    "Verif.Props.C115_exactly",
    "Verif.Props.C115_zero",
    "Verif.Props.C115_nil_pointer"
   ],
   "note": "Spec.blank is the value that zeros stand for, Spec.Straight the types for which it is the zero value. C115_nil_pointer shows why untagged pointers are excluded there: Bin writes nothing for nil but reads a value."
  },
  {
   "property": "C116",
   "status": "proved",
   "theorems": [
    "Verif.Props.C116_encode",
    "Verif.Props.C116_decode",
    "Verif.Props.C116_exchange",
    "Verif.Props.C116_tag_left_behind",
    "Verif.Props.C116_small_letter"
   ],
   "note": "Spec.renamed replaces the names and the names in sizeof tags; the theorems are equations between the encode and decode functions, so they hold without any condition on value or input. Whether a field is exported is kept apart from its name in the model and does not change. Error texts, which mention field names in places, are not part of this statement; errors are compared by class. C116_tag_left_behind and C116_small_letter show the limits."
  },
  {
   "property": "C117",
   "status": "proved",
   "theorems": [
    "Verif.Props.C117_encode",
    "Verif.Props.C117_decode",
    "Verif.Props.C117_same",
    "Verif.Props.C117_coption",
    "Verif.Props.C117_coption_borsh",
    "Verif.Props.C117_variants",
    "Verif.Props.C117_variants_bin"
   ],
   "note": "Spec.pared removes the tags from the declaration. The theorems are about the parsed tags (C53, C84 say how they come from the text). C117_coption_borsh and C117_variants_bin show that the same tags count elsewhere."
  }
 ]
}