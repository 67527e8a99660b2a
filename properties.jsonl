{"id": "C01", "title": "Fixed-width integers survive a write/read round trip", "statement": "For every unsigned or signed integer of 8, 16, 32, 64 or 128 bits and either byte order, writing it with Encoder.WriteUintN/WriteIntN and reading it back with Decoder.ReadUintN/ReadIntN in the same order returns the same number, consumes exactly N/8 bytes and leaves every following byte unread, wherever in the buffer the number sits.", "quantifier": "all integers of each width, both byte orders, all bytes before and after", "why_tests_cant": "2^64 and 2^128 values times arbitrary surroundings cannot be enumerated", "anchors": ["encoder.go:WriteUint16..WriteInt128", "decoder.go:ReadUint8..ReadInt128"]}
{"id": "C02", "title": "Fixed-width integers have the documented positional layout", "statement": "The bytes produced by WriteUintN are exactly N/8 many; in little-endian order byte i is (v / 256^i) mod 256, in big-endian order the same bytes appear reversed, and signed integers are written as their two's complement.", "quantifier": "all integers of each width, both byte orders", "why_tests_cant": "other implementations (Rust programs) parse these bytes; every value must have the agreed layout", "anchors": ["encoder.go:WriteUint16", "encoder.go:WriteUint32", "encoder.go:WriteUint64", "encoder.go:WriteUint128"]}
{"id": "C03", "title": "A fixed-size read that does not fit fails cleanly", "statement": "If fewer than N/8 bytes remain, ReadByte/ReadBool/ReadUintN/ReadIntN/ReadFloatN/ReadUint128 return an error, do not panic and leave the cursor where it was; if enough bytes remain they succeed (Borsh NaN floats apart).", "quantifier": "all buffers, all cursor positions, all widths and orders", "why_tests_cant": "needs every combination of buffer length and position", "anchors": ["decoder.go:ReadByte", "decoder.go:ReadUint16", "decoder.go:ReadUint32", "decoder.go:ReadUint64", "decoder.go:ReadUint128", "decoder.go:ReadFloat32", "decoder.go:ReadFloat64"]}
{"id": "C04", "title": "Compact-u16 round trip", "statement": "For every length 0..65535, EncodeCompactU16Length followed by DecodeCompactU16 on the result plus arbitrary trailing bytes returns that length, the exact number of bytes written, and no error; Decoder.ReadCompactU16 after Encoder.WriteCompactU16 does the same and advances by that size.", "quantifier": "all lengths 0..65535 and all trailing bytes", "why_tests_cant": "trailing bytes are unbounded; the existing loop test stops one short of 65535", "anchors": ["compact-u16.go:EncodeCompactU16Length", "compact-u16.go:DecodeCompactU16", "decoder.go:ReadCompactU16"]}
{"id": "C05", "title": "Compact-u16 encoder range and size", "statement": "EncodeCompactU16Length returns an error and leaves the buffer untouched exactly when the length is negative or above 65535; otherwise it appends 1 byte below 128, 2 bytes below 16384 and 3 bytes above.", "quantifier": "all integers (negative included) and all initial buffers", "why_tests_cant": "ranges over all ints", "anchors": ["compact-u16.go:EncodeCompactU16Length"]}
{"id": "C06", "title": "Compact-u16 decoding is canonical", "statement": "DecodeCompactU16 accepts a byte string exactly when it starts with the canonical encoding of some length 0..65535 and then reports that length; two different accepted byte strings of the reported size never decode to the same length, so aliases (trailing zero groups), over-long and out-of-range encodings are all rejected.", "quantifier": "all byte strings", "why_tests_cant": "byte strings are unbounded and malleability is a for-all/for-no claim", "anchors": ["compact-u16.go:DecodeCompactU16"]}
{"id": "C07", "title": "Stream and slice compact-u16 decoders agree", "statement": "DecodeCompactU16LengthFromByteReader on a reader over b returns the same length or fails in the same cases as DecodeCompactU16(b), and on success has consumed exactly the reported size from the reader.", "quantifier": "all byte strings", "why_tests_cant": "two independent implementations must agree on every input", "anchors": ["compact-u16.go:DecodeCompactU16LengthFromByteReader", "compact-u16.go:DecodeCompactU16"]}
{"id": "C08", "title": "Unsigned varint round trip and range", "statement": "WriteUVarInt(v) followed by ReadUvarint64 returns v for every 0 <= v < 2^56 whatever follows, in at most 8 bytes, minimal length; for every other v (negative or >= 2^56) WriteUVarInt panics instead of writing wrong bytes.", "quantifier": "all int values, all trailing bytes", "why_tests_cant": "the failing region starts at 2^56 and is invisible to sampled tests", "anchors": ["encoder.go:WriteUVarInt", "decoder.go:ReadUvarint64"]}
{"id": "C09", "title": "Signed varint (zig-zag) round trip and range", "statement": "WriteVarInt(v) followed by ReadVarint64 returns v for every -2^55 <= v < 2^55 whatever follows; outside that range WriteVarInt panics.", "quantifier": "all int values, all trailing bytes", "why_tests_cant": "same", "anchors": ["encoder.go:WriteVarInt", "decoder.go:ReadVarint64"]}
{"id": "C10", "title": "Varint reader is robust", "statement": "On every byte string ReadUvarint64 either fails leaving the cursor unchanged, or consumes between 1 and 10 bytes that end in the first byte below 0x80, all of them inside the buffer, and returns the base-128 value of exactly those bytes, which is below 2^64; values of 2^64 and more are rejected.", "quantifier": "all byte strings and positions", "why_tests_cant": "hostile inputs of arbitrary length", "anchors": ["decoder.go:ReadUvarint64", "decoder.go:ReadVarint64"]}
{"id": "C11", "title": "Narrow varint reads never change the value", "statement": "ReadUvarint16/32, ReadVarint16/32 and the Varuint16/Varuint32/Varint16/Varint32 types return the number on the wire or an error.", "quantifier": "all byte strings", "why_tests_cant": "violations need wire values beyond 16/32 bits", "anchors": ["decoder.go:ReadUvarint32", "decoder.go:ReadUvarint16", "decoder.go:ReadVarint32", "decoder.go:ReadVarint16", "types.go:Varuint32"]}
{"id": "C12", "title": "Booleans and option flags", "statement": "WriteBool/WriteOption write one byte 0 or 1, WriteCOption four bytes; the matching reads return what was written. ReadBool and ReadOption accept any byte (non-zero is true); ReadCOption accepts exactly 0 and 1 and errors on every other 32-bit value.", "quantifier": "both booleans, all byte values, all 32-bit values, all surroundings", "why_tests_cant": "2^32 flag values", "anchors": ["encoder.go:WriteBool", "encoder.go:WriteOption", "encoder.go:WriteCOption", "decoder.go:ReadBool", "decoder.go:ReadOption", "decoder.go:ReadCOption"]}
{"id": "C13", "title": "Floats keep their bits; Borsh refuses NaN", "statement": "WriteFloat32/64 then ReadFloat32/64 in the same order returns the identical bit pattern for every non-NaN float in every encoding; in Borsh every NaN is refused by the writer (nothing written) and by the reader; in the other encodings direct calls preserve NaN bits too.", "quantifier": "all 2^32 / 2^64 bit patterns, both orders, three encodings", "why_tests_cant": "2^64 bit patterns", "anchors": ["encoder.go:WriteFloat32", "encoder.go:WriteFloat64", "decoder.go:ReadFloat32", "decoder.go:ReadFloat64"]}
{"id": "C14", "title": "Length-prefixed bytes and strings round trip", "statement": "In each encoding, WriteBytes(b,true)/WriteString(s) followed by ReadByteSlice/ReadString returns exactly the bytes and stops right after them, for every content whose length fits the prefix (Bin and Borsh: below 2^31, CompactU16: at most 65535), whatever follows.", "quantifier": "all byte strings up to the limit, all surroundings, three encodings", "why_tests_cant": "unbounded contents", "anchors": ["encoder.go:WriteBytes", "encoder.go:WriteString", "encoder.go:WriteLength", "decoder.go:ReadByteSlice", "decoder.go:ReadString", "decoder.go:ReadLength"]}
{"id": "C15", "title": "A length that the prefix cannot carry is reported", "statement": "Writing a string, byte slice, slice or map whose length does not fit the encoding's length prefix returns an error instead of emitting a stream that decodes to something else.", "quantifier": "all lengths, three encodings", "why_tests_cant": "needs over-long values (65536 elements, 2^32 elements)", "anchors": ["encoder.go:WriteLength", "encoder.go:WriteCompactU16", "compact-u16.go:EncodeCompactU16Length"]}
{"id": "C16", "title": "Rust-style strings round trip", "statement": "WriteRustString then ReadRustString returns the string for every length below 2^31, with an 8-byte little-endian length; a declared length beyond the buffer is an error.", "quantifier": "all strings, all surroundings", "why_tests_cant": "unbounded contents", "anchors": ["encoder.go:WriteRustString", "decoder.go:ReadRustString"]}
{"id": "C17", "title": "Decoder cursor stays inside the buffer", "statement": "After any sequence of Decoder calls, successful or failing, the cursor is between 0 and Len(), Position()+Remaining() = Len(), the buffer contents are unchanged, and reads never move the cursor backwards; HasRemaining is true exactly when the cursor is before the end.", "quantifier": "all buffers, all finite sequences of decoder calls with all arguments", "why_tests_cant": "histories of calls", "anchors": ["decoder.go:Decoder", "decoder.go:SetPosition", "decoder.go:SkipBytes", "decoder.go:Read", "decoder.go:ReadNBytes"]}
{"id": "C18", "title": "No sequence of primitive reads panics", "statement": "No sequence of Decoder primitive calls (with a real byte order) on any buffer panics, whatever the arguments.", "quantifier": "all buffers, all finite sequences of decoder calls with all arguments", "why_tests_cant": "histories of calls with hostile arguments", "anchors": ["decoder.go:all Read* methods", "decoder.go:Peek", "decoder.go:Discard", "decoder.go:SetPosition"]}
{"id": "C19", "title": "A write session is read back by the mirrored read session", "statement": "Any finite sequence of typed Write calls (integers, floats, bools, options, varints, lengths, strings, raw bytes, in any mix and order) produces bytes from which the mirrored sequence of Read calls returns exactly the values written and ends exactly at the end of what was written.", "quantifier": "all finite sequences of write calls with all in-range arguments, three encodings, any trailing bytes", "why_tests_cant": "unbounded histories", "anchors": ["encoder.go:Write*", "decoder.go:Read*"]}
{"id": "C20", "title": "Peek, ReadNBytes, Discard, SkipBytes and SetPosition do what they say", "statement": "Peek(n) returns the next n bytes without moving; ReadNBytes(n)/ReadBytes(n) returns the same bytes and moves by n; Discard/SkipBytes move by n without returning data; each fails without moving if n bytes are not available or n is negative; SetPosition(i) followed by a read returns the bytes at offset i.", "quantifier": "all buffers, positions and arguments", "why_tests_cant": "all argument/position combinations including extreme values", "anchors": ["decoder.go:Peek", "decoder.go:ReadNBytes", "decoder.go:Discard", "decoder.go:SkipBytes", "decoder.go:SetPosition"]}
{"id": "C21", "title": "Written() counts the bytes produced", "statement": "After any sequence of Write calls and Encode calls on a writer that does not fail, Written() equals the number of bytes the writer received since the encoder was created.", "quantifier": "all finite sequences of encoder calls, all values", "why_tests_cant": "unbounded histories", "anchors": ["encoder.go:Written", "encoder.go:toWriter", "encoder.go:Write"]}
{"id": "C22", "title": "A failing writer is reported and output is a prefix", "statement": "If the underlying writer rejects its k-th Write, Encode returns an error (never success), makes no further Write call, and the chunks delivered before are exactly the first chunks of the output that would have been produced without the failure.", "quantifier": "all types and values, all writer failure points, three encodings", "why_tests_cant": "every crash point of every encoding run", "anchors": ["encoder.go:toWriter", "encoder_borsh.go:encodeBorsh", "encoder_bin.go:encodeBin", "encoder_compact-u16.go:encodeCompactU16"]}
{"id": "C23", "title": "Byte counts match the marshalled size", "statement": "BinByteCount/BorshByteCount/CompactU16ByteCount return exactly the length of what MarshalBin/MarshalBorsh/MarshalCompactU16 produce for the same value, and fail exactly when it fails.", "quantifier": "all types and values, three encodings", "why_tests_cant": "all values", "anchors": ["interface.go:BinByteCount", "interface.go:BorshByteCount", "interface.go:CompactU16ByteCount", "interface.go:MarshalBin"]}
{"id": "C24", "title": "Borsh output follows the Borsh specification", "statement": "For every supported value, MarshalBorsh returns the bytes of the Borsh format: little-endian integers, u32-prefixed strings, slices and maps (keys ascending), fields in order, 0/1 option tag, one-byte enum tag followed by the selected variant.", "quantifier": "all supported types and values (arbitrary nesting and sizes)", "why_tests_cant": "the type grammar is infinite; on-chain programs parse this output", "anchors": ["encoder_borsh.go:encodeBorsh", "encoder_borsh.go:encodeStructBorsh", "encoder_borsh.go:encodeComplexEnumBorsh"]}
{"id": "C25", "title": "Bin output follows its layout", "statement": "For every supported value MarshalBin returns: integers in the tagged byte order, u64-prefixed strings, uvarint-prefixed slices and maps, fields in order, u32 option flags.", "quantifier": "all supported types and values", "why_tests_cant": "the type grammar is infinite", "anchors": ["encoder_bin.go:encodeBin", "encoder_bin.go:encodeStructBin"]}
{"id": "C26", "title": "CompactU16 output follows its layout", "statement": "For every supported value MarshalCompactU16 returns: integers in the tagged byte order, compact-u16-prefixed strings, slices and maps, fields in order, one-byte option flags.", "quantifier": "all supported types and values", "why_tests_cant": "the type grammar is infinite", "anchors": ["encoder_compact-u16.go:encodeCompactU16"]}
{"id": "C27", "title": "Borsh round trip", "statement": "For every supported type and value, UnmarshalBorsh into a fresh variable of what MarshalBorsh produced succeeds and yields an equal value (nil and empty slices/maps identified, map order irrelevant, untransmitted fields zero).", "quantifier": "all supported types (scalars, strings, arrays, slices, maps, pointers, nested structs with tags, enums, library types) and all values", "why_tests_cant": "infinite type grammar and values", "anchors": ["interface.go:MarshalBorsh", "interface.go:UnmarshalBorsh", "encoder_borsh.go", "decoder_borsh.go"]}
{"id": "C28", "title": "Bin round trip", "statement": "For every supported type and value, UnmarshalBin of MarshalBin's output into a fresh variable succeeds and yields an equal value (nil/empty identified).", "quantifier": "all supported types and values", "why_tests_cant": "infinite type grammar and values", "anchors": ["interface.go:MarshalBin", "interface.go:UnmarshalBin", "encoder_bin.go", "decoder_bin.go"]}
{"id": "C29", "title": "CompactU16 round trip", "statement": "For every supported type and value, UnmarshalCompactU16 of MarshalCompactU16's output into a fresh variable succeeds and yields an equal value (nil/empty identified).", "quantifier": "all supported types and values", "why_tests_cant": "infinite type grammar and values", "anchors": ["interface.go:MarshalCompactU16", "interface.go:UnmarshalCompactU16", "encoder_compact-u16.go", "decoder_compact-u16.go"]}
{"id": "C30", "title": "Encodings are self-delimiting and unambiguous", "statement": "Values written back to back with one encoder are read back one by one with one decoder; no encoding of a supported value is a proper prefix of another encoding of the same type, and two values with the same encoding are equal (nil/empty identified).", "quantifier": "all supported types, all pairs and sequences of values", "why_tests_cant": "pairs and sequences of arbitrary values", "anchors": ["encoder.go:Encode", "decoder.go:Decode"]}
{"id": "C31", "title": "Borsh maps encode deterministically", "statement": "The Borsh bytes of a map do not depend on Go's map iteration order: every ordering of the same entries gives the same bytes, with keys strictly ascending. (Bin and CompactU16 give no such guarantee.)", "quantifier": "all maps with integer, string or float keys and all iteration orders", "why_tests_cant": "iteration order is random and the number of orders is factorial", "anchors": ["encoder_borsh.go:vComp", "encoder_borsh.go:encodeBorsh"]}
{"id": "C32", "title": "Truncated input is rejected", "statement": "If the encoding of a supported value (of a type without binary_extension fields) loses any non-empty suffix, decoding it returns an error, never a value.", "quantifier": "all supported types, values and truncation points", "why_tests_cant": "every truncation point of every encoding", "anchors": ["decoder_borsh.go:decodeBorsh", "decoder_bin.go:decodeBin", "decoder_compact-u16.go:decodeCompactU16"]}
{"id": "C33", "title": "Decoding hostile bytes never panics", "statement": "For every decodable type and every byte string Decode returns a value or an error: it terminates, never panics, and leaves the cursor inside the buffer, not before where it started.", "quantifier": "all byte strings, all decodable types, three encodings", "why_tests_cant": "all inputs", "anchors": ["decoder_borsh.go:decodeBorsh", "decoder_bin.go:decodeBin", "decoder_compact-u16.go:decodeCompactU16"]}
{"id": "C34", "title": "A successful decode depends only on the bytes it consumed", "statement": "If Decode succeeds, then appending arbitrary bytes to the buffer changes neither the value nor the number of bytes consumed (types without binary_extension fields), and the bytes before the cursor never matter.", "quantifier": "all byte strings, suffixes and types", "why_tests_cant": "all inputs and suffixes", "anchors": ["decoder.go:Decode"]}
{"id": "C35", "title": "Declared lengths beyond the buffer are rejected before any element is read", "statement": "If a slice's declared length exceeds the number of bytes that remain, Decode returns io.ErrUnexpectedEOF without decoding or allocating elements; hence a decoded slice never has more elements than the input has bytes.", "quantifier": "all byte strings, all element types, three encodings", "why_tests_cant": "hostile length prefixes", "anchors": ["decoder_borsh.go:decodeBorsh", "decoder_bin.go:decodeBin", "decoder.go:reflect_readArrayOfUint_"]}
{"id": "C36", "title": "Decoding into a used variable gives the same result as into a fresh one", "statement": "The value decoded does not depend on what the destination held before.", "quantifier": "all byte strings, types and previous destination contents", "why_tests_cant": "all previous contents", "anchors": ["decoder_borsh.go:decodeBorsh", "decoder_bin.go:decodeBin"]}
{"id": "C37", "title": "Skipped and unexported fields are inert", "statement": "Fields tagged skip/-/borsh_skip and unexported fields contribute no bytes: changing them does not change the output of Encode, and Decode leaves them untouched.", "quantifier": "all struct types, values and inputs", "why_tests_cant": "all values of the ignored fields", "anchors": ["encoder_borsh.go:encodeStructBorsh", "decoder_borsh.go:decodeStructBorsh", "encoder_bin.go:encodeStructBin", "decoder_bin.go:decodeStructBin"]}
{"id": "C38", "title": "Optional fields", "statement": "A field tagged optional is written as a presence flag (Borsh/CompactU16 one byte, Bin four bytes) followed by the value when present; it is absent exactly when the Go value is its zero value; decoding an absent field yields the zero value (nil pointer), a present one yields the value.", "quantifier": "all field types and values, three encodings", "why_tests_cant": "all types and values", "anchors": ["encoder_borsh.go:encodeBorsh", "decoder_borsh.go:decodeBorsh", "encoder_bin.go:encodeBin", "decoder_bin.go:decodeBin"]}
{"id": "C39", "title": "C-options", "statement": "In Borsh a field tagged coption is written as a 4-byte 0/1 flag followed by the value when present, and decoding refuses any other flag.", "quantifier": "all field types, values and flag words", "why_tests_cant": "2^32 flags", "anchors": ["encoder_borsh.go:encodeBorsh", "decoder.go:ReadCOption"]}
{"id": "C40", "title": "sizeof fields", "statement": "When field A is tagged sizeof=B, slice B is written without its own length prefix and decoded with exactly as many elements as A's value (none if it is negative or at least 2^63); the pair round-trips whenever A equals len(B).", "quantifier": "all counts and slices", "why_tests_cant": "all counts", "anchors": ["encoder_borsh.go:encodeStructBorsh", "decoder_borsh.go:decodeStructBorsh", "decoder.go:sizeof"]}
{"id": "C41", "title": "Binary extension fields", "statement": "Trailing fields tagged binary_extension are decoded when bytes remain and left untouched when the buffer is exhausted, so data written by an older struct version still decodes.", "quantifier": "all struct types and inputs", "why_tests_cant": "all inputs", "anchors": ["decoder_borsh.go:decodeStructBorsh", "decoder_bin.go:decodeStructBin"]}
{"id": "C42", "title": "Borsh enums", "statement": "A struct whose first field is a BorshEnum tagged as enum is written as that tag byte followed by the selected variant only; decoding restores tag and payload; a tag with no matching field is an error on both sides.", "quantifier": "all enum types, tags and payloads", "why_tests_cant": "all payload types and values", "anchors": ["encoder_borsh.go:encodeComplexEnumBorsh", "decoder_borsh.go:deserializeComplexEnum"]}
{"id": "C43", "title": "Optional library-typed fields round trip", "statement": "Fields of the library's own types (Uint128, Int64, SafeString, HexBytes, ...) may be tagged optional and round-trip like any other field.", "quantifier": "all library types, values and encodings", "why_tests_cant": "all values", "anchors": ["decoder_borsh.go:decodeStructBorsh", "decoder.go:indirect"]}
{"id": "C44", "title": "Byte-order tags", "statement": "A field tagged big is written and read big-endian, and round-trips, in the encodings that honour byte order.", "quantifier": "all integer, float and library-typed fields, values and encodings", "why_tests_cant": "all values", "anchors": ["tags-options.go:option", "decoder_borsh.go:decodeStructBorsh", "u128.go:UnmarshalWithDecoder", "types.go:Uint64"]}
{"id": "C45", "title": "TypeID conversions", "statement": "TypeIDFromUint8/Uint32/Uvarint32 are injective and are inverted by the matching ...FromTypeID functions; TypeIDFromBytes keeps the first eight bytes and zero-fills; Equal is byte equality; the methods Uint8, Uint32, Uvarint32 and Bytes agree.", "quantifier": "all 8- and 32-bit values, all byte strings", "why_tests_cant": "2^32 values", "anchors": ["variant.go:TypeIDFromUint8", "variant.go:TypeIDFromUint32", "variant.go:TypeIDFromUvarint32", "variant.go:TypeIDFromBytes"]}
{"id": "C46", "title": "Variant definitions select the right type", "statement": "For a definition with distinct names, TypeID(name_i) is the id of the i-th type, ids of different types differ, and UnmarshalBinaryVariant on that id's wire form selects the i-th type; unknown ids are an error.", "quantifier": "all lists of variant types, all ids, all encodings of ids", "why_tests_cant": "all lists and ids", "anchors": ["variant.go:NewVariantDefinition", "variant.go:TypeID", "variant.go:UnmarshalBinaryVariant"]}
{"id": "C47", "title": "128-bit values denote the right integer", "statement": "Uint128.BigInt is Hi*2^64+Lo whatever the Endianness field says; Int128.BigInt is its two's-complement value; Bytes is the 16-byte big-endian form.", "quantifier": "all pairs (Hi, Lo) and endianness settings", "why_tests_cant": "2^128 values", "anchors": ["u128.go:Bytes", "u128.go:BigInt", "u128.go:Int128.BigInt", "utils.go:twosComplement"]}
{"id": "C48", "title": "128-bit JSON round trip", "statement": "Unmarshalling the JSON produced by Uint128/Int128/Float128.MarshalJSON gives back the same Lo and Hi; HexString's form is accepted too.", "quantifier": "all 2^128 values, both endianness settings", "why_tests_cant": "2^128 values", "anchors": ["u128.go:MarshalJSON", "u128.go:UnmarshalJSON", "u128.go:unmarshalJSON_decimal", "u128.go:unmarshalJSON_hex"]}
{"id": "C49", "title": "64-bit JSON round trip", "statement": "Int64/Uint64 MarshalJSON then UnmarshalJSON returns the same number; values beyond +-(2^32-1) are emitted as JSON strings, others as JSON numbers.", "quantifier": "all 64-bit values", "why_tests_cant": "2^64 values", "anchors": ["types.go:Int64", "types.go:Uint64"]}
{"id": "C50", "title": "Snake case for sighash", "statement": "ToRustSnakeCase/ToSnakeForSighash output has no upper-case letter, no leading, trailing or doubled underscore, contains the same letters and digits as the input in order (lower-cased), and applying it twice changes nothing.", "quantifier": "all ASCII strings", "why_tests_cant": "unbounded strings", "anchors": ["heck.go:ToRustSnakeCase", "heck.go:splitIntoWords"]}
{"id": "C51", "title": "Pascal case for account sighash", "statement": "ToPascalCase output contains no separators, starts with an upper-case letter or digit, and contains the same letters and digits as the input in order up to case.", "quantifier": "all ASCII strings", "why_tests_cant": "unbounded strings", "anchors": ["heck.go:ToPascalCase", "heck.go:transform", "heck.go:capitalize"]}
{"id": "C52", "title": "Sighash", "statement": "Sighash(ns,name) is the first eight bytes of the hash of ns:name and depends only on that string; SighashInstruction(name) is invariant under re-spelling the name in any case style with the same snake-case form; SighashTypeID has the same bytes. With SHA-256 the hashes are those known to Anchor.", "quantifier": "all namespaces and names, any hash function", "why_tests_cant": "all strings", "anchors": ["sighash.go:Sighash", "sighash.go:SighashInstruction", "sighash.go:SighashAccount", "sighash.go:SighashTypeID"]}
{"id": "C53", "title": "Struct tag parsing", "statement": "parseFieldTag sets each flag exactly when the corresponding word occurs among the space-separated words of the bin tag (or the borsh_* tag is true); unknown words are ignored; the last of big/little wins with little as default; the last sizeof= wins.", "quantifier": "all tag strings", "why_tests_cant": "all strings", "anchors": ["tags-parser.go:parseFieldTag"]}
{"id": "C54", "title": "WriteByWrite records faithfully", "statement": "Bytes() is the concatenation of everything written in order, independent of how it was chunked, equal to what a plain buffer would hold.", "quantifier": "all sequences of writes", "why_tests_cant": "unbounded histories", "anchors": ["tools.go:WriteByWrite"]}
{"id": "C55", "title": "ReverseBytes is an involution that reverses", "statement": "ReverseBytes reverses the slice in place; applying it twice restores it.", "quantifier": "all byte slices", "why_tests_cant": "unbounded", "anchors": ["u128.go:ReverseBytes"]}
{"id": "C56", "title": "Decoded byte slices are isolated from the input buffer", "statement": "Changing the input buffer after decoding does not change decoded values.", "quantifier": "all buffers, later mutations", "why_tests_cant": "aliasing is a property of later histories", "anchors": ["decoder.go:readNBytes", "decoder.go:reflect_readArrayOfBytes", "decoder.go:ReadByteSlice"]}
{"id": "C57", "title": "Values with nil pointers round trip or are refused", "statement": "Encoding a struct that contains a nil non-optional pointer either fails or produces bytes that decode to an equivalent value.", "quantifier": "all types with pointers, three encodings", "why_tests_cant": "all types", "anchors": ["encoder_borsh.go:encodeBorsh", "encoder_bin.go:encodeBin"]}
{"id": "C58", "title": "Slices of zero-size elements round trip", "statement": "Slices whose elements occupy no bytes (empty structs, EmptyVariant, structs with only skipped fields) round trip like other slices.", "quantifier": "all such element types and lengths", "why_tests_cant": "all types", "anchors": ["decoder_borsh.go:decodeBorsh"]}
{"id": "C59", "title": "Hex text round trip", "statement": "HexBytes.String/MarshalJSON produce two lower-case hex digits per byte and UnmarshalJSON restores the bytes.", "quantifier": "all byte strings", "why_tests_cant": "unbounded", "anchors": ["types.go:HexBytes"]}
{"id": "C60", "title": "Reset makes a decoder as good as new", "statement": "After Reset(data) the decoder behaves exactly like a new decoder of the same encoding on data, whatever happened before.", "quantifier": "all previous histories and new buffers", "why_tests_cant": "histories", "anchors": ["decoder.go:Reset", "decoder.go:NewDecoderWithEncoding"]}
{"id": "C61", "title": "Debug formatting is faithful", "statement": "FormatByteSlice/FormatDiscriminator list every byte in decimal in order; different byte slices format differently.", "quantifier": "all byte slices", "why_tests_cant": "unbounded", "anchors": ["tools.go:FormatByteSlice", "tools.go:FormatDiscriminator"]}
{"id": "C62", "title": "Library scalar types round trip", "statement": "Each library type's MarshalWithEncoder followed by its UnmarshalWithDecoder on the bytes (plus anything after) restores the value and consumes exactly those bytes: Bool, SafeString (valid UTF-8), HexBytes, Varint16/32, Varuint16/32, JSONFloat64, Int64, Uint64, Uint128, Int128, Float128.", "quantifier": "all values of each type, three encodings, both orders", "why_tests_cant": "all values", "anchors": ["types.go", "u128.go"]}
{"id": "C63", "title": "Pascal case depends on the snake form only", "statement": "ToPascalCase(ToRustSnakeCase(s)) = ToPascalCase(s); two spellings with the same snake case have the same Pascal case (hence the same SighashAccount). The converse does not hold.", "quantifier": "all ASCII strings", "why_tests_cant": "unbounded strings", "anchors": ["heck.go:ToPascalCase", "heck.go:ToRustSnakeCase", "sighash.go:SighashAccount"]}
{"id": "C64", "title": "Case conversion never panics", "statement": "ToRustSnakeCase, ToSnakeForSighash and ToPascalCase return a string for every byte string, valid UTF-8 or not.", "quantifier": "all byte strings, any Unicode tables", "why_tests_cant": "rune indices are used as byte indices; every slice expression must stay in range for every string", "anchors": ["heck.go:transform", "heck.go:ToRustSnakeCase", "heck.go:capitalize"]}
{"id": "C65", "title": "Case conversion keeps letters outside ASCII", "statement": "The letters and digits of the output are those of the input in order up to case, for every valid UTF-8 string.", "quantifier": "all valid UTF-8 strings", "why_tests_cant": "only multi-byte letters at particular positions expose it", "anchors": ["heck.go:transform", "heck.go:ToRustSnakeCase", "heck.go:capitalize"]}
{"id": "C66", "title": "Recorder report", "statement": "WriteByWrite.String lists one numbered line per write in order, after the name if it is not empty; two recorders of the same name with different write histories print differently.", "quantifier": "all names and write histories", "why_tests_cant": "unbounded histories", "anchors": ["tools.go:WriteByWrite", "tools.go:FormatByteSlice"]}
{"id": "C67", "title": "SafeString repair", "statement": "SafeReadUTF8String consumes what ReadString would, keeps every well-formed UTF-8 scalar value of it and replaces each other byte by U+FFFD: the result is valid UTF-8, is uniquely determined, and equals the input exactly when the input was valid.", "quantifier": "all byte strings, all decoders, three encodings", "why_tests_cant": "truncated sequences, surrogates, overlong forms at any position of a string of any length", "anchors": ["decoder.go:SafeReadUTF8String", "types.go:SafeString.UnmarshalWithDecoder"]}
{"id": "C68", "title": "JSON input of Int64, Uint64, Bool and HexBytes is accepted exactly when well formed", "statement": "Unmarshalling an unquoted JSON text succeeds exactly when, after trimming blanks, it is null or an integer literal in range (Bool: also true, false; integers mean 'not zero'), and yields the number written; a quoted text succeeds exactly when the string is a decimal (hex) text in range, and yields its value. No input panics.", "quantifier": "all byte strings", "why_tests_cant": "all byte strings: signs, leading zeros, ranges at 2^63 and 2^64, blanks, odd hex lengths", "anchors": ["types.go:Int64.UnmarshalJSON", "types.go:Uint64.UnmarshalJSON", "types.go:Bool.UnmarshalJSON", "types.go:HexBytes.UnmarshalJSON"]}
{"id": "C69", "title": "128-bit decimal text denotes the value", "statement": "String, DecimalString and the JSON form of a 128-bit integer are its decimal text: the signed value for Int128, the unsigned one for Uint128.", "quantifier": "all 2^128 values", "why_tests_cant": "2^128 values", "anchors": ["u128.go:Uint128.String", "u128.go:Int128.DecimalString", "u128.go:Uint128.MarshalJSON"]}
{"id": "C70", "title": "128-bit JSON input is validated", "statement": "UnmarshalJSON of a quoted decimal number yields that number if it fits the type and an error otherwise; it never panics and never yields a different number.", "quantifier": "all decimal texts", "why_tests_cant": "unbounded texts: numbers beyond the range, signs, leading zeros", "anchors": ["u128.go:Uint128.UnmarshalJSON", "u128.go:Int128.UnmarshalJSON"]}
{"id": "C71", "title": "Length-prefixed data is accepted exactly when the declared length is there", "statement": "ReadByteSlice (HexBytes, strings outside Bin) succeeds exactly when the unread bytes start with a length prefix of the encoding declaring n < 2^31 and n bytes follow; it returns those n bytes and moves past them. Otherwise it fails without panic. ReadRustString likewise with an 8-byte length.", "quantifier": "all decoder states, all byte strings, three encodings", "why_tests_cant": "all byte strings: lengths beyond the data, at 2^31, padded varints", "anchors": ["decoder.go:ReadLength", "decoder.go:ReadByteSlice", "decoder.go:ReadRustString"]}
{"id": "C72", "title": "One encoding per value", "statement": "For a type without booleans, option flags, varint types, SafeString, maps and extension fields (and with slice lengths that have one form), every accepted input is exactly what the encoder writes for the value obtained followed by unread bytes; no two fully consumed inputs decode to the same value.", "quantifier": "all byte strings, all such types (any nesting), three encodings", "why_tests_cant": "unbounded inputs: a malleable encoding is a pair of different inputs with the same value", "anchors": ["decoder.go:Decode", "decoder_bin.go", "decoder_borsh.go", "decoder_compact-u16.go"]}
{"id": "C73", "title": "Encoding never panics", "statement": "Encode returns, with or without an error, for every value of every type and every writer.", "quantifier": "all types, values, writers, three encodings", "why_tests_cant": "unbounded values; panics hide in map key types, nil pointers and length counters", "anchors": ["encoder.go:Encode", "encoder_borsh.go:vComp", "encoder_bin.go", "encoder_compact-u16.go"]}
{"id": "C74", "title": "Decoded values can be stored again", "statement": "For a type whose map keys are integers, booleans or strings, whose slice elements occupy at least a byte and whose counters are unsigned, without extension fields, optional library types and CompactU16 SafeStrings: a value decoded from any input shorter than 512 MiB, canonical or not, is encoded without error, and decoding the result gives the same value.", "quantifier": "all byte strings below 2^29 bytes, all such types (any nesting), three encodings", "why_tests_cant": "unbounded inputs that no encoder wrote: duplicate map keys, odd flags, padded lengths, invalid UTF-8", "anchors": ["decoder.go:Decode", "encoder.go:Encode", "decoder_bin.go", "decoder_borsh.go", "decoder_compact-u16.go"]}
{"id": "C75", "title": "Storing is stable", "statement": "For the types of the previous property: encode a value obtained by decoding any input, decode the result and encode again; the second encoding has the same bytes as the first.", "quantifier": "all byte strings below 2^29 bytes, all such types (any nesting), three encodings", "why_tests_cant": "unbounded inputs; values whose optional parts are zero, empty or nil flip between present and absent", "anchors": ["decoder.go:Decode", "encoder.go:Encode", "encoder_borsh.go", "encoder_bin.go", "encoder_compact-u16.go"]}
{"id": "C76", "title": "A failed Decode stops in one place", "statement": "When Decode of a struct returns an error, one field has failed: the fields before it hold what decoding them alone gives, the fields behind it are unchanged, and it holds what a failed Decode of it alone leaves. A failed slice is unchanged or holds the elements completed so far; a failed Borsh enum has at most its tag and the selected variant changed. The variable can be decoded into again without panic.", "quantifier": "all struct types, all old values, all decoder states, three encodings", "why_tests_cant": "an error can occur at any byte of an unbounded input at any nesting depth; tests look at results only after success", "anchors": ["decoder.go:Decode", "decoder_bin.go:decodeStructBin", "decoder_borsh.go:decodeStructBorsh", "decoder_compact-u16.go:decodeStructCompactU16"]}
{"id": "C77", "title": "A failed Decode leaves the variable as it was", "statement": "When Decode returns an error, the variable passed to it still has the value it had before the call.", "quantifier": "all types, all old values, all inputs, three encodings", "why_tests_cant": "an error can occur at any byte of an unbounded input", "anchors": ["decoder.go:Decode", "decoder_bin.go:decodeBin", "decoder_borsh.go:decodeBorsh", "decoder_compact-u16.go:decodeCompactU16"]}
{"id": "C78", "title": "Decoded maps: the last pair wins", "statement": "Decode into a map succeeds exactly when a length prefix declaring n and then n key/value pairs can be read. With n = 0 the map is left as it is; otherwise the result is a new map holding, for every key that occurs, the last pair with that key. Keys are equal when they are the same value; floats when they are the same number, NaN never.", "quantifier": "all byte strings, all key and value types (any nesting), three encodings", "why_tests_cant": "unbounded inputs with repeated keys, signed zeros, NaNs", "anchors": ["decoder_bin.go:decodeBin", "decoder_borsh.go:decodeBorsh", "decoder_compact-u16.go:decodeCompactU16"]}
{"id": "C79", "title": "Slices and arrays are decoded element by element", "statement": "Decode into a slice succeeds exactly when a length prefix declaring n, followed by at least n bytes, can be read and n new elements can be decoded one after the other as if each were decoded alone; Borsh keeps the old slice when n = 0. An array is decoded element by element into the old elements.", "quantifier": "all byte strings below 2 GiB, all element types (any nesting), three encodings", "why_tests_cant": "unbounded inputs; a bulk path for unsigned integers runs instead of the element decoder", "anchors": ["decoder_bin.go:decodeBin", "decoder_borsh.go:decodeBorsh", "decoder_compact-u16.go:decodeCompactU16", "decoder.go:reflect_readArrayOfUint16"]}
{"id": "C80", "title": "128-bit JSON input: accepted texts", "statement": "Uint128.UnmarshalJSON accepts exactly null (which leaves the receiver as it is) and JSON strings, escapes resolved, that are integer texts (sign, base prefix behind it, single underscores) of absolute value below 2^128 not starting with 0x; Int128 and Float128 become the absolute value. It panics exactly on integer texts from 2^128 on and on 0x followed by sixteen hex digits, and returns an error on everything else.", "quantifier": "all byte strings, all receivers", "why_tests_cant": "unbounded texts; signs, prefixes, underscores and escapes combine", "anchors": ["u128.go:UnmarshalJSON", "u128.go:unmarshalJSON_decimal", "u128.go:unmarshalJSON_hex"]}
{"id": "C81", "title": "Arguments that cannot be filled are refused", "statement": "Decode called with nil, with a non-pointer or with a nil pointer returns an InvalidDecoderError and reads nothing (error.go documents this: the argument must be a non-nil pointer); Encode(nil) succeeds and writes nothing.", "quantifier": "all decoder and encoder states, three encodings", "why_tests_cant": "documented behaviour of every call in every state; a nil pointer of every type", "anchors": ["decoder.go:Decode", "decoder.go:indirect", "error.go:InvalidDecoderError", "encoder.go:Encode", "utils.go:isZero"]}
{"id": "C82", "title": "Encoding selectors", "statement": "The Encoding values 0, 1, 2 have distinct non-empty names and are told apart by IsBin, IsCompactU16 and IsBorsh; all other integers have the empty name. The constructors accept exactly these three and panic otherwise; after SetEncoding with any other integer Decode and ReadLength panic, and SetEncoding changes neither position nor data.", "quantifier": "all integers, all decoder states", "why_tests_cant": "Encoding is an int: 2^64 values", "anchors": ["tags-options.go:Encoding", "decoder.go:NewDecoderWithEncoding", "encoder.go:NewEncoderWithEncoding", "decoder.go:SetEncoding"]}
{"id": "C83", "title": "Fixed layouts", "statement": "For a type built from booleans, integers, floats, fixed-width library types, arrays, pointers and structs without optional, counted, extension or enum fields there is a number k: every supported value is encoded in k bytes, every k bytes (Borsh NaNs apart) are decoded successfully into any variable of the type, wherever they sit and whatever follows, exactly k bytes are taken, and fewer than k bytes are an error.", "quantifier": "all such types (any nesting), all byte strings, all old values, three encodings", "why_tests_cant": "unbounded inputs and nesting", "anchors": ["decoder.go:Decode", "encoder.go:Encode", "interface.go:BinByteCount"]}
{"id": "C84", "title": "Raw struct tags", "statement": "The options of a field are read from the keys bin, borsh_skip and borsh_enum of its struct tag by the convention of package reflect: pairs key:\"value\" separated by spaces, values as Go string literals. The first pair with a key counts, pairs with other keys, the number of spaces and anything after text that is not a pair have no effect, and a value that is not a Go string literal counts as absent.", "quantifier": "all byte strings as tags", "why_tests_cant": "unbounded tags, all escapes, malformed tags", "anchors": ["tags-parser.go:parseFieldTag"]}
{"id": "C85", "title": "Structs are decoded field by field", "statement": "Decode into a struct succeeds exactly when its fields can be decoded one after the other, each right where the one before it stopped. Skipped and unexported fields, and extension fields with nothing unread, are left as they are. Before an optional field stands a flag (four bytes in Bin, one otherwise; anything but zero means that the value follows), before a C-option in Borsh the word 0 or 1; without a value the field becomes zero. In Borsh a field of one of the library's types is decoded by the type's own method whatever its tag. A Borsh enum is one byte selecting a field, then that field alone. A pointer is decoded into the value behind it, a new one if it is nil.", "quantifier": "all byte strings, all struct types without big and sizeof tags (any nesting), all old values, three encodings", "why_tests_cant": "unbounded inputs and field lists; every combination of tags, old pointers and flags", "anchors": ["decoder_bin.go:decodeStructBin", "decoder_borsh.go:decodeStructBorsh", "decoder_compact-u16.go:decodeStructCompactU16", "decoder_borsh.go:deserializeComplexEnum", "decoder.go:indirect"]}
{"id": "C86", "title": "A variant knows what it holds", "statement": "After UnmarshalBinaryVariant, whether it succeeds or fails and whatever the receiver held before, TypeID and Impl belong together: Obtain returns the name of a type of the definition and a value of that type, or the receiver is unchanged.", "quantifier": "all definitions with enough ids, all inputs, all receivers, all id encodings", "why_tests_cant": "every cut of every input, every earlier content", "anchors": ["variant.go:UnmarshalBinaryVariant", "variant.go:Obtain"]}
{"id": "C87", "title": "JSON input of floats", "statement": "JSONFloat64.UnmarshalJSON accepts null (as 0), a JSON number, and a JSON string holding a Go floating-point literal, a decimal integer, an infinity or NaN with an optional sign; nothing else. A number becomes the double nearest to it, the even one of two, and is refused exactly when it is at least 2^1024 - 2^970 in absolute value. Texts over 2000 bytes with an exponent of 100000 or more are excluded. No input panics.", "quantifier": "all byte strings", "why_tests_cant": "unbounded texts: digits, points, exponents, underscores, prefixes and escapes combine; rounding at every boundary", "anchors": ["types.go:UnmarshalJSON"]}
{"id": "C88", "title": "Encoders and decoders have no memory", "statement": "Encode on an encoder used before, whatever became of the earlier calls, has the result that Marshal has and sends out the same bytes, also when it fails or panics; the outputs of any number of calls are those of Marshal one after the other. Decode anywhere in the data, after any earlier reads, has the result of Unmarshal on the unread bytes, errors and panics included, and consumes as many of them.", "quantifier": "all encoder and decoder states inside the data, all types, values and byte strings, three encodings", "why_tests_cant": "unbounded histories of calls, including failed ones", "anchors": ["encoder.go:Encode", "decoder.go:Decode", "interface.go:MarshalBin", "interface.go:UnmarshalBin"]}
{"id": "C89", "title": "Values are written part by part", "statement": "Marshal of a struct without sizeof and big tags writes, for each field in turn, its flags and what Marshal of the field alone writes, and stops with the result of the first that fails. Likewise a slice is its length and its elements in turn, an array its elements, a map its length and its keys and values in turn (sorted by key in Borsh), a pointer what it points at; a nil pointer is the zero value in Borsh and nothing otherwise.", "quantifier": "all such types, all values (encodable or not), three encodings", "why_tests_cant": "every position of every failure in values of unbounded size", "anchors": ["encoder_bin.go:encodeBin", "encoder_bin.go:encodeStructBin", "encoder_borsh.go:encodeBorsh", "encoder_borsh.go:encodeStructBorsh", "encoder_compact-u16.go:encodeCompactU16"]}
{"id": "C90", "title": "Recursive types", "statement": "For a type that mentions itself behind pointers, slices or map values, Marshal of a (finite) value and Unmarshal into a new variable come to an end, and do what they do for any unrolling of the type that is deep enough for the value or the data: same result, same bytes, also on failure. Linked lists of any length and trees are written element by element and read back.", "quantifier": "all recursive types given by their unrollings, all values, all inputs, three encodings", "why_tests_cant": "recursion of unbounded depth", "anchors": ["encoder_borsh.go:encodeBorsh", "encoder_bin.go:encodeBin", "encoder_compact-u16.go:encodeCompactU16", "decoder_bin.go:decodeBin", "decoder_borsh.go:decodeBorsh", "decoder_compact-u16.go:decodeCompactU16", "decoder.go:indirect"]}
{"id": "C91", "title": "Refused JSON leaves the receiver alone", "statement": "UnmarshalJSON of Int64, Uint64, Bool, JSONFloat64, HexBytes, Uint128, Int128 and Float128 stores the value in the receiver if it succeeds; if it fails or panics, the receiver holds what it held before.", "quantifier": "all byte strings, all receivers", "why_tests_cant": "every cut and corruption of every text, with every earlier content", "anchors": ["types.go:UnmarshalJSON", "u128.go:UnmarshalJSON", "u128.go:unmarshalJSON_decimal", "u128.go:unmarshalJSON_hex"]}
{"id": "C92", "title": "The work and the memory of decoding are bounded by the input", "statement": "Decoding an input of n bytes into a new variable of type T takes at most c*(n+1) steps (calls, loop rounds, bytes looked at), where c is the size of T, whether or not it succeeds; the value stored by a successful decode has at most c parts for each byte that was consumed (c if none was).", "quantifier": "all types, all byte strings, three encodings", "why_tests_cant": "every length prefix at every depth; only adversarial inputs show the difference", "anchors": ["decoder_bin.go:decodeBin", "decoder_borsh.go:decodeBorsh", "decoder_compact-u16.go:decodeCompactU16", "decoder_bin.go:decodeStructBin", "decoder_borsh.go:decodeStructBorsh"]}
{"id": "C93", "title": "Types for which the encoding makes no difference", "statement": "For fixed-size types (booleans, integers, varints, Uint128 and its kin, arrays and structs of them) Bin, Borsh and CompactU16 agree: same result, same Write calls and same count for every value, and the same result and position for every input and every old value. Bin and CompactU16 also agree on floats, pointers, slices announced by a sizeof tag and byte-order tags, Borsh and CompactU16 on optional fields. The agreement ends with length prefixes, with optional fields in Bin and, next to Borsh, with floats, pointers, slices, enums, C-options, byte orders and sizeof tags; for each of these a type that differs is given.", "quantifier": "all types of the given form (any nesting), all values, all byte strings, all writers, all pairs of encodings", "why_tests_cant": "unbounded nesting, every value and input, failures included", "anchors": ["encoder_bin.go:encodeBin", "encoder_borsh.go:encodeBorsh", "encoder_compact-u16.go:encodeCompactU16", "decoder_bin.go:decodeBin", "decoder_borsh.go:decodeBorsh", "decoder_compact-u16.go:decodeCompactU16"]}
{"id": "C94", "title": "Variables of type interface{}", "statement": "For a variable, struct field or slice element of type interface{} Encode writes what it writes for the value of one of the library's types that is held there, directly or behind one pointer, and nothing for any other content; an optional field has a flag saying whether the interface is nil. Decode fills what a pointer held there points to, as if that pointer had been passed to Decode, and leaves any other content alone without reading a byte. Decode into a variable with content of the same type restores what was encoded.", "quantifier": "all contents, structs with any number of interface fields, slices, all byte strings, three encodings", "why_tests_cant": "the content is of any type; encoder and decoder look at it by different rules", "anchors": ["encoder_bin.go:encodeBin", "encoder_borsh.go:encodeBorsh", "encoder_compact-u16.go:encodeCompactU16", "decoder.go:indirect", "decoder_bin.go:decodeBin", "decoder_borsh.go:decodeBorsh", "decoder_compact-u16.go:decodeCompactU16"]}
{"id": "C95", "title": "Types with marshal methods of their own", "statement": "Wherever a value of a type with MarshalWithEncoder and UnmarshalWithDecoder occurs (alone, behind a pointer, as element of a slice or array, as map value, as struct field, also an optional one, as payload of a Borsh enum), Encode writes what the first method writes and Decode reads it with the second; lengths, flags, and all other parts are written and read as always. If each value is read back by the second method from what the first one writes, then so is every value that contains such values. When a method fails, Encode stops with its error.", "quantifier": "all methods (any effect on encoder or decoder), all types built around them, all values, three encodings", "why_tests_cant": "the methods are arbitrary programs; every position in types of unbounded nesting", "anchors": ["interface.go:BinaryMarshaler", "interface.go:BinaryUnmarshaler", "encoder_bin.go:encodeBin", "encoder_borsh.go:encodeBorsh", "encoder_compact-u16.go:encodeCompactU16", "decoder.go:indirect", "decoder_bin.go:decodeBin", "decoder_borsh.go:decodeBorsh", "decoder_compact-u16.go:decodeCompactU16"]}
{"id": "C96", "title": "Errors name the field that failed", "statement": "When Encode or Decode fails inside structs, the error names, from the outside in, the struct fields that lead to the place of the failure, one for each struct on the way (Borsh enums have none): the outermost is the first field that fails, the others are those of the error of that field's value alone. The names do not depend on the fields that follow, and apart from the names the failure is the one of the other properties.", "quantifier": "all types, all values, all writers, all byte strings, three encodings", "why_tests_cant": "the path has unbounded length; every position of every failure", "anchors": ["encoder_bin.go:encodeStructBin", "encoder_borsh.go:encodeStructBorsh", "encoder_borsh.go:encodeComplexEnumBorsh", "encoder_compact-u16.go:encodeStructCompactU16", "decoder_bin.go:decodeStructBin", "decoder_borsh.go:decodeStructBorsh", "decoder_compact-u16.go:decodeStructCompactU16"]}
{"id": "C97", "title": "Errors keep their cause", "statement": "errors.Is and errors.As find in the error of a failed Encode or Decode the error that made it fail (the writer's error, io.ErrUnexpectedEOF, ErrVarIntBufferSize, ...), at any depth.", "quantifier": "all types, all values, all writers, all byte strings, three encodings", "why_tests_cant": "every failure at every depth; wrapping happens on every level", "anchors": ["encoder_bin.go:encodeStructBin", "encoder_borsh.go:encodeStructBorsh", "decoder_bin.go:decodeStructBin", "decoder_borsh.go:decodeStructBorsh", "decoder_borsh.go:decodeBorsh", "decoder.go:ReadFloat128", "types.go:UnmarshalWithDecoder"]}
{"id": "C98", "title": "Any byte order will do", "statement": "The calls that take a byte order accept every implementation of binary.ByteOrder whose methods are inverse to each other, binary.NativeEndian included: what a Write call writes with it, the Read call of the same width reads back, wherever it stands in the data. A nil order makes them panic before anything is written or the cursor moves (too little data and a Borsh NaN are reported first).", "quantifier": "all such implementations, all values, all decoder positions, three encodings", "why_tests_cant": "the implementations are arbitrary code; the tests only use the two constants", "anchors": ["decoder.go:ReadUint16", "decoder.go:ReadUint32", "decoder.go:ReadUint64", "decoder.go:ReadUint128", "decoder.go:ReadFloat32", "decoder.go:ReadFloat64", "encoder.go:WriteUint16", "encoder.go:WriteUint128", "encoder.go:WriteInt128", "u128.go:Bytes"]}
{"id": "C99", "title": "Tracing changes nothing", "statement": "Turning on the package's tracing changes neither the outcome of an Encode call nor what it hands to the writer, and every call leaves the package logger as it found it, also when it fails or panics.", "quantifier": "all types, all values, all encoder states, all writers, three encodings", "why_tests_cant": "tracing is off in tests; its statements run at every level of every value", "anchors": ["logging.go:traceEnabled", "logging.go:typeField", "encoder_bin.go:encodeBin", "encoder_borsh.go:encodeBorsh", "encoder_compact-u16.go:encodeCompactU16"]}
{"id": "C100", "title": "Writers that take part of a chunk", "statement": "Whatever part of each chunk the writer takes, if it reports an error for every short write (io.Writer) then it has received a beginning of what the calls write to a writer that never fails; it has received all of it unless the writer's error was returned; Written() is the number of bytes it has received; Encoder.Write returns its number and its error.", "quantifier": "all writers, all sequences of calls, all types and values, three encodings", "why_tests_cant": "the writer is arbitrary code and may stop after any byte of any chunk", "anchors": ["encoder.go:toWriter", "encoder.go:Write", "encoder.go:Written", "encoder.go:Encode"]}
{"id": "C101", "title": "Compact-u16 lengths from any byte reader", "statement": "DecodeCompactU16LengthFromByteReader takes from any io.ByteReader exactly the bytes that decide, at most three, and never asks it again after that or after an error; the answer is that of DecodeCompactU16 on these bytes, or the reader's error if there is one before. An input that ends inside a length is io.ErrUnexpectedEOF, as for DecodeCompactU16.", "quantifier": "all readers (states and errors of any kind)", "why_tests_cant": "the reader is arbitrary code that may fail at any call", "anchors": ["compact-u16.go:DecodeCompactU16LengthFromByteReader", "compact-u16.go:DecodeCompactU16"]}
{"id": "C102", "title": "Maps of interfaces come back", "statement": "Encode of a map[K]interface{} writes the number of entries, then every key and what Encode writes for the value the interface holds, whatever its type (maps and slices of interfaces included, nil interfaces not at all), sorted by key in Borsh. Decoding the bytes into a map[K]interface{} accounts for all of them and gives the keys back.", "quantifier": "all key types, maps nested to any depth, all encodings", "why_tests_cant": "a map has unboundedly many shapes and depths, and its values any type", "anchors": ["encoder_bin.go:encodeBin", "encoder_compact-u16.go:encodeCompactU16", "encoder_borsh.go:encodeBorsh", "decoder_bin.go:decodeBin", "decoder_compact-u16.go:decodeCompactU16", "decoder_borsh.go:decodeBorsh"]}
{"id": "C103", "title": "A newer version of a type is its older version with something after it", "statement": "Let a struct gain fields at its end, with any tags. Encoding: the bytes of the newer version start with those of the older one, and where the older one fails or panics the newer one does so too, with the same bytes. Decoding from any bytes: failures and panics of the older version are those of the newer one, and where the newer one succeeds the older one does with the same first fields. The older version reads what the newer one wrote, and stops before the added fields. Let a Borsh enum gain variants: for the variants it had nothing changes in either direction, and the older version refuses the new ones.", "quantifier": "all structs and enums, all added fields and variants, all values and bytes, all encodings", "why_tests_cant": "tests fix two versions of one type; the claim is about every pair of versions, including pairs whose fields fail or panic", "anchors": ["encoder_bin.go:encodeStructBin", "encoder_borsh.go:encodeStructBorsh", "encoder_borsh.go:encodeComplexEnumBorsh", "decoder_bin.go:decodeStructBin", "decoder_borsh.go:decodeStructBorsh", "decoder_borsh.go:deserializeComplexEnum"]}
{"id": "C104", "title": "The decoder is an io.Reader and an io.ByteReader", "statement": "The functions of Go's standard library that read from an io.Reader or io.ByteReader work on a Decoder: io.ReadFull fills the buffer with the next bytes or fails, io.CopyN and io.LimitReader hand over exactly the bytes asked for, io.ReadAll and io.Copy hand over all bytes that are left and return no error, binary.ReadUvarint and DecodeCompactU16LengthFromByteReader return what ReadUvarint64 and ReadCompactU16 return. The cursor is then behind the bytes that were handed over.", "quantifier": "all buffers and positions, all buffer sizes and growth rules", "why_tests_cant": "every length relative to every buffer size", "anchors": ["decoder.go:Read", "decoder.go:ReadByte", "decoder.go:ReadUvarint64", "decoder.go:ReadCompactU16", "compact-u16.go:DecodeCompactU16LengthFromByteReader"]}
{"id": "C105", "title": "Decode assigns to the variable and what it points to, and to nothing else", "statement": "Decode(&x) changes only x, the variables that pointers in it lead to, and memory that it allocates, also when it fails or panics. Pointers that are not nil stay the same pointers and are decoded through; nil pointers get new variables. Slices and maps are replaced by new ones, so that whoever holds the old ones still sees the old content. If no variable is reached on two ways, x then holds what Decode makes of the tree of values that x showed before, again without sharing.", "quantifier": "all types, all heaps with any sharing between pointers, slices and maps, all inputs, three encodings", "why_tests_cant": "which memory is touched depends on how the destination is linked, and there are unboundedly many ways to link it", "anchors": ["decoder.go:indirect", "decoder.go:Decode", "decoder_bin.go:decodeBin", "decoder_borsh.go:decodeBorsh", "decoder_compact-u16.go:decodeCompactU16", "decoder.go:reflect_readArrayOfUint_"]}
{"id": "C106", "title": "A failed read returns the zero value", "statement": "Every Read method, Peek, PeekDiscriminator, DecodeCompactU16 and DecodeCompactU16LengthFromByteReader return, along with an error, the zero value of their first result (zero, false, the empty string, nil for a []byte, TypeID{}), whatever has been read before the failure; without an error they return what was read. A []byte that comes back without an error is not nil.", "quantifier": "all reads, all buffers, positions, encodings and byte orders, all byte readers", "why_tests_cant": "callers that look at the value before the error see what is left over from a failure at any point of any input", "anchors": ["decoder.go:ReadUvarint64", "decoder.go:ReadVarint64", "decoder.go:ReadByteSlice", "decoder.go:ReadLength", "decoder.go:ReadCompactU16", "decoder.go:ReadBool", "decoder.go:ReadFloat32", "decoder.go:ReadFloat64", "decoder.go:ReadUint128", "decoder.go:ReadString", "decoder.go:ReadRustString", "decoder.go:ReadTypeID", "decoder.go:Peek", "decoder.go:Read", "compact-u16.go:DecodeCompactU16", "compact-u16.go:DecodeCompactU16LengthFromByteReader"]}
{"id": "C107", "title": "Encoders in different goroutines do not disturb each other", "statement": "Calls of Encode on different encoders may run in different goroutines: whatever the interleaving, each returns the result and writes the bytes it would alone, and afterwards the package variables hold what they held before.", "quantifier": "all types and values, any number of goroutines, all interleavings of the loads and stores of package variables, with and without tracing", "why_tests_cant": "there are exponentially many interleavings, and a test sees a few of them", "anchors": ["logging.go:zlog", "encoder_bin.go:encodeBin", "encoder_borsh.go:encodeBorsh", "encoder_compact-u16.go:encodeCompactU16", "encoder.go:Encode"]}
{"id": "C108", "title": "An error that says how many bytes are missing is right", "statement": "Let a read, or Decode into a type without binary_extension fields, fail with a message that says that k bytes are missing (or that n are required and m remain; k is then n - m). Then k is positive. If fewer than k bytes are appended to the input, the call fails at the same place and its message says how many are missing then; if k or more are appended, it gets past that place. What succeeds does the same with more bytes behind. The same holds of every program made of such calls.", "quantifier": "all reads, all types without binary_extension, all inputs and positions inside them, all continuations of the input, all encodings", "why_tests_cant": "a caller that waits for more input relies on the number for every type, every input cut at every place and every continuation", "anchors": ["decoder.go:ReadByte", "decoder.go:ReadBool", "decoder.go:ReadUint16", "decoder.go:ReadUint32", "decoder.go:ReadUint64", "decoder.go:ReadUint128", "decoder.go:ReadFloat32", "decoder.go:ReadFloat64", "decoder.go:readNBytes", "decoder.go:ReadByteSlice", "decoder.go:Peek", "decoder.go:SkipBytes", "decoder.go:Decode"]}
{"id": "C109", "title": "Encode sees values, not memory; Encode then Decode is a deep copy", "statement": "What Encode writes depends only on the value that its argument shows when pointers, slices and maps are followed, not on where the parts are stored or which of them are shared; it changes no memory. A supported value that is encoded and decoded into a new variable becomes a deep copy: the copy consists of new memory only, shares nothing with the original and nothing within itself, and later changes to one are not seen in the other. An argument that contains a pointer to itself has no encoding: Encode goes on for ever.", "quantifier": "all types, all heaps with any sharing between pointers, slices and maps, all supported values for the copy, three encodings", "why_tests_cant": "there are unboundedly many ways to link the parts of a value", "anchors": ["encoder.go:Encode", "encoder_bin.go:encodeBin", "encoder_borsh.go:encodeBorsh", "encoder_compact-u16.go:encodeCompactU16", "decoder.go:Decode", "decoder.go:indirect"]}
{"id": "C110", "title": "Types with the same layout are interchangeable", "statement": "Two Go types that differ only in ways that leave no trace in the encoding have the same bytes, and what was written as one is read as the other. Such differences are: a pointer and its target; a defined type and its underlying type; a number, its bits or its two's complement; library types and the plain types they stand for; strings and slices of bytes; an array, a struct with as many fields and a slice whose length is carried by another field; a map and the slice of its entries; a struct with another one embedded and the flat struct; fields that are skipped; an optional pointer of Borsh and an enum of None and Some; and any combination of these inside slices, arrays and structs.", "quantifier": "all pairs of types related by the rules, to any depth, all encodable values, three encodings", "why_tests_cant": "the pairs of types are built from rules that can be nested and chained without bound", "anchors": ["encoder_bin.go:encodeBin", "encoder_bin.go:encodeStructBin", "encoder_borsh.go:encodeBorsh", "encoder_borsh.go:encodeStructBorsh", "encoder_borsh.go:encodeComplexEnumBorsh", "encoder_compact-u16.go:encodeCompactU16", "decoder_bin.go:decodeBin", "decoder_borsh.go:decodeBorsh", "decoder_compact-u16.go:decodeCompactU16"]}
{"id": "C111", "title": "A part of a value is found at its offset, and can be read and replaced there", "statement": "The bytes of a part of a value (a field, an element, the target of a pointer, a map value, the payload of an enum, at any depth) stand in the encoding behind the bytes of all that comes before it. SetPosition to that offset and Decode into a variable of the part's type reads the part alone. Replacing these bytes by those of another value is the encoding of the value with that part replaced. Where all that comes before has a fixed size, the offset is known from the type alone and is the same for all values, so that stored values can be searched by comparing bytes at an offset.", "quantifier": "all types and paths into them, all encodable values (supported ones for reading and searching), three encodings", "why_tests_cant": "the paths through nested types and the sizes of what stands before a part are unbounded", "anchors": ["encoder_bin.go:encodeStructBin", "encoder_borsh.go:encodeStructBorsh", "encoder_borsh.go:encodeComplexEnumBorsh", "encoder_bin.go:encodeBin", "encoder_borsh.go:encodeBorsh", "encoder_compact-u16.go:encodeCompactU16", "decoder.go:SetPosition", "decoder.go:Decode"]}
{"id": "C112", "title": "Borsh data is exchanged with Rust as the README says", "statement": "With the Go types that the README gives as equivalents of Rust's (and the plain ones for integers, floats, strings, vectors, arrays, maps, structs), Go writes for a value the bytes that the Borsh specification prescribes for the Rust value, reads what Rust wrote as that value whatever follows, and everything that Go can write for such a type is the encoding of some Rust value.", "quantifier": "all Rust types made of unit, bool, integers up to 128 bits, floats, strings, Vec, arrays, Option, maps with integer or string keys, structs and enums, nested to any depth; all values of them with lengths up to 2^31-1 for reading and 2^32-1 for writing", "why_tests_cant": "the types nest without bound, and the Borsh specification is an independent reference for every one of them", "anchors": ["README.md", "encoder_borsh.go:encodeBorsh", "encoder_borsh.go:encodeStructBorsh", "encoder_borsh.go:encodeComplexEnumBorsh", "decoder_borsh.go:decodeBorsh", "decoder_borsh.go:decodeStructBorsh", "decoder_borsh.go:deserializeComplexEnum"]}
{"id": "C113", "title": "Big-endian encodings sort like the values", "statement": "For types made of booleans, single bytes, unsigned integers written big endian, library Uint64 and Uint128 under a big tag, and arrays and structs of these, comparing two encodings byte by byte gives the order of the values: numbers by size, structs by the first field that differs. All encodings of such a type have one length, and equal encodings are equal values, so they serve as database keys and a leading group of fields as a key prefix. The conditions are needed: little-endian integers (the default, in Borsh also under the big tag), integers in arrays, signed integers and strings do not sort.", "quantifier": "all sortable types nested to any depth, all pairs of encodable values, three encodings", "why_tests_cant": "the pairs of values and the nesting of types are unbounded", "anchors": ["encoder.go:WriteUint16", "encoder.go:WriteUint32", "encoder.go:WriteUint64", "encoder_bin.go:encodeBin", "encoder_bin.go:encodeStructBin", "encoder_borsh.go:encodeBorsh", "encoder_compact-u16.go:encodeCompactU16", "u128.go:MarshalWithEncoder"]}
{"id": "C114", "title": "The size of a type: least and greatest number of bytes", "statement": "From the declaration of a type one computes the least number of bytes that any value of it takes and, if it has no strings, slices or maps, the greatest. Every encoding lies between the two; where they agree all values have one size. The least is reached by the zero value where that has an encoding without a Borsh enum. The greatest is reached too, where there are no Borsh enums and sizeof tags and every field under a presence flag can be other than zero. Every successful Decode of whatever bytes into a fresh variable takes a number of bytes between the bounds for reading, and inputs shorter than the least are refused. Without Borsh enums and extension fields that least is reached, by zeros. The bounds for reading differ from those for writing in three places: varints may be padded to 10 bytes, binary_extension fields may be missing, and there must be something behind a pointer though nil is written as nothing.", "quantifier": "all types, all encodable values, all inputs and positions inside them, three encodings", "why_tests_cant": "the values and inputs of a type are unboundedly many, and buffers are sized by these bounds", "anchors": ["encoder.go:Encode", "encoder_bin.go:encodeBin", "encoder_borsh.go:encodeBorsh", "encoder_compact-u16.go:encodeCompactU16", "decoder.go:Decode", "decoder_bin.go:decodeBin", "decoder_borsh.go:decodeBorsh", "decoder_compact-u16.go:decodeCompactU16", "interface.go:BinByteCount"]}
{"id": "C115", "title": "Buffers filled with zeros", "statement": "Accounts and pages are zeroed before they are written for the first time. Reading zero bytes into a fresh variable gives one known value per type: the zero value, except that untagged pointers lead to something, slices outside Borsh and HexBytes are empty and not nil, and a Borsh enum has its first variant. A zeroed buffer of any sufficient length is read as that value, a shorter one is refused with an error (if there are no extension fields), the sufficient length being the least size of the type for reading (if there are no Borsh enums either), and the value is written as zero bytes only. For types without untagged pointers, HexBytes and, outside Borsh, slices it is the zero value.", "quantifier": "all types whose value for zeros can be stored and read back, all buffer lengths, three encodings", "why_tests_cant": "the types nest without bound and the length of the buffer is arbitrary", "anchors": ["decoder.go:Decode", "decoder_bin.go:decodeBin", "decoder_bin.go:decodeStructBin", "decoder_borsh.go:decodeBorsh", "decoder_borsh.go:decodeStructBorsh", "decoder_borsh.go:deserializeComplexEnum", "decoder_compact-u16.go:decodeCompactU16", "encoder.go:Encode"]}
{"id": "C116", "title": "The names of struct fields are not part of the format", "statement": "If the fields of all structs in a type get other names, different names staying different and sizeof tags following the fields they name, then Encode and Decode do exactly what they did before, for every value, input and state: the same bytes, the same values, the same panics, and the same errors but for the name of the field in their text. So stored data outlives the renaming of fields. A sizeof tag that keeps the old name changes the format, and so does a name that starts with a small letter.", "quantifier": "all types, all values and previous values, all inputs and states of encoder and decoder, all injective renamings, all encodings", "why_tests_cant": "types, values and renamings are unbounded, and the failing cases are covered like the successful ones", "anchors": ["encoder_bin.go:encodeStructBin", "encoder_borsh.go:encodeStructBorsh", "encoder_compact-u16.go:encodeStructCompactU16", "decoder_bin.go:decodeStructBin", "decoder_borsh.go:decodeStructBorsh", "decoder_compact-u16.go:decodeStructCompactU16"]}
{"id": "C117", "title": "Tags that have no effect", "statement": "Some struct tags change nothing, wherever they stand: coption outside Borsh; enum on anything but a first field of type BorshEnum, and outside Borsh everywhere; on a skipped field all tags but skip; on the variants of a Borsh enum all tags, even skip, optional and big. Encode and Decode do exactly the same with and without them, for every value, input and state. Two declarations that differ only in such tags have the same format.", "quantifier": "all types, all values and previous values, all inputs and states of encoder and decoder, all encodings", "why_tests_cant": "types and values are unbounded, and the tags are dropped without an error, so that no test fails where one was expected to do something", "anchors": ["encoder_bin.go:encodeStructBin", "encoder_borsh.go:encodeStructBorsh", "encoder_borsh.go:encodeComplexEnumBorsh", "encoder_compact-u16.go:encodeStructCompactU16", "decoder_bin.go:decodeStructBin", "decoder_borsh.go:decodeStructBorsh", "decoder_borsh.go:deserializeComplexEnum", "decoder_compact-u16.go:decodeStructCompactU16", "tags-parser.go:parseFieldTag"]}
