{"id": "C01", "title": "Varint write/read round trip", "statement": "For every varint-encoded scalar type (int32, int64, uint32, uint64, sint32, sint64), writing a value and reading the bytes back with the same type yields exactly that value and consumes exactly the written bytes, whatever bytes follow them in the buffer.", "quantifier": "all six varint types, all values of the type, all byte strings that follow", "why_tests_cant": "2^32 / 2^64 values times arbitrary following bytes; the decoder is a branch-per-length bit trick (sign-extend, shift, AND) whose correctness differs per length", "anchors": ["include/hpp_proto/binpb/varint.hpp: unchecked_pack_varint, shift_mix_parse_varint, unchecked_parse_varint"]}
{"id": "C02", "title": "Varint size is exact, minimal and at most 10", "statement": "The size announced for a varint before it is written equals the number of bytes written, is the least length of any base-128 encoding of the value, and is between 1 and 10; every byte but the last has the continuation bit.", "quantifier": "all 64-bit values, both encodings", "why_tests_cant": "a mismatch at one bit-length boundary corrupts every enclosing length prefix; tests touch a handful of boundaries", "anchors": ["include/hpp_proto/binpb/varint.hpp: varint_size, varint::encode_size, unchecked_pack_varint"]}
{"id": "C03", "title": "64-bit varint reading of arbitrary bytes", "statement": "On any byte string, reading a 64-bit varint consumes exactly the bytes up to and including the first byte without the continuation bit and yields the base-128 value modulo 2^64; if there is no such byte among the first ten the read fails. The 32-bit readers agree with this modulo 2^32 for every encoding of at most 5 bytes (int32: at most 10).", "quantifier": "all byte strings of any length", "why_tests_cant": "hostile and over-long encodings are unbounded; the fast path accumulates garbage in the high bits that only a proof shows to be masked off", "anchors": ["include/hpp_proto/binpb/varint.hpp: shift_mix_parse_varint"]}
{"id": "C04", "title": "ZigZag is a bijection that keeps small magnitudes small", "statement": "sint32/sint64 encoding maps signed values one-to-one onto unsigned ones (0,-1,1,-2,... to 0,1,2,3,...) and decoding inverts it for every value including the minimum.", "quantifier": "all 2^32 and 2^64 values", "why_tests_cant": "exhaustive testing over 64-bit values is impossible", "anchors": ["include/hpp_proto/binpb/varint.hpp: unchecked_pack_varint, unchecked_parse_varint, varint_size<zig_zag>"]}
{"id": "C05", "title": "Bool reading accepts any varint and means non-zero", "statement": "Reading a bool field from any terminated varint of at most ten bytes yields true exactly when the base-128 value modulo 2^64 is non-zero, consumes exactly that varint, and fails on an unterminated one.", "quantifier": "all byte strings", "why_tests_cant": "nested ten-level OR chain; unbounded inputs", "anchors": ["include/hpp_proto/binpb/varint.hpp: unchecked_parse_bool"]}
{"id": "C06", "title": "Field tags survive the wire", "statement": "For every legal field number (1..2^29-1) and wire type, the tag written for a field is read back as the same field number and wire type.", "quantifier": "all field numbers and wire types, all following bytes", "why_tests_cant": "2^29 field numbers; tests use small ones", "anchors": ["include/hpp_proto/binpb/meta.hpp: make_tag, tag_type, tag_number", "include/hpp_proto/binpb/deserialize.hpp: basic_in::read_tag, basic_in::match_tag"]}
{"id": "C07", "title": "Size computation is exact", "statement": "For every message, the size that write_binpb computes before writing equals the number of bytes it then writes, so it neither writes past the end of the buffer it sized nor leaves unwritten bytes in it.", "quantifier": "all schemas, all message values, all nesting depths up to the recursion limit", "why_tests_cant": "two independent recursive traversals must agree on every field kind at every depth", "anchors": ["include/hpp_proto/binpb/serialize.hpp: message_size_calculator, serialize_field, serialize, resize_contiguous_buffer"]}
{"id": "C08", "title": "Size cache is neither overrun nor misaligned", "statement": "The three passes of write_binpb (count cache entries, compute sizes, write) agree on the number and order of cache entries: no pass reads or writes past the end of the cache and every length prefix written is the byte length of the payload that follows it.", "quantifier": "all schemas, all message values", "why_tests_cant": "an off-by-one in one field kind is an out-of-bounds heap access only for messages mixing specific kinds", "anchors": ["include/hpp_proto/binpb/serialize.hpp: size_cache_counter, message_size_calculator, consume_size_cache_entry"]}
{"id": "C09", "title": "Written bytes are the protobuf wire encoding", "statement": "When write_binpb succeeds its output is the protobuf wire encoding of the message: fields in declaration order, each present value as tag plus payload, length prefixes equal to payload length, packed fields as one record, map entries as two-field messages, groups between start/end tags, stored unknown bytes last.", "quantifier": "all schemas, all message values", "why_tests_cant": "needs comparison with an independent encoder for every value", "anchors": ["include/hpp_proto/binpb/serialize.hpp: serialize, serialize_field, serialize_oneof", "include/hpp_proto/binpb/meta.hpp: make_tag, tag_type"]}
{"id": "C10", "title": "Binary round trip", "statement": "If write_binpb of a well-formed message succeeds, read_binpb of the bytes with the same recursion limit succeeds and yields an equal message (including unknown fields kept by the message).", "quantifier": "all schemas with distinct field numbers, all well-formed message values, all nesting depths within the limit", "why_tests_cant": "infinite value space and schema space; interactions of packed runs, maps, groups, oneofs and nested lengths", "anchors": ["include/hpp_proto/binpb.hpp: write_binpb, read_binpb", "include/hpp_proto/binpb/serialize.hpp", "include/hpp_proto/binpb/deserialize.hpp"]}
{"id": "C11", "title": "Oversized messages are refused before output", "statement": "If the encoded size of a message is 2^31-1 or more, write_binpb returns value_too_large and leaves the destination buffer untouched; below that it never returns value_too_large.", "quantifier": "all messages and buffers", "why_tests_cant": "messages of 2 GiB are not built in tests; nested sizes saturate and must not wrap", "anchors": ["include/hpp_proto/binpb/serialize.hpp: serialize_contiguous_buffer_with_cache, saturate_to_max_message_size, max_message_size"]}
{"id": "C12", "title": "Fixed-capacity buffers are never overrun", "statement": "Writing into a buffer that cannot grow returns not_enough_memory without touching the buffer if the encoding is longer than the buffer, and otherwise changes exactly the leading bytes it needs.", "quantifier": "all messages, all capacities and previous contents", "why_tests_cant": "every (message, capacity) pair", "anchors": ["include/hpp_proto/binpb/serialize.hpp: resize_contiguous_buffer, serialize_contiguous_buffer_with_cache, contiguous_out"]}
{"id": "C13", "title": "Recursion limit on writing is exact and balanced", "statement": "write_binpb fails with bad_message exactly when the message nests (messages, groups and map entries) deeper than the limit; the context's depth counter has its initial value after every call, successful or not.", "quantifier": "all messages, all limits below UINT32_MAX", "why_tests_cant": "depth is unbounded; the counter is shared mutable state", "anchors": ["include/hpp_proto/recursion.hpp: recursion_scope", "include/hpp_proto/binpb/serialize.hpp: size_cache_counter::count, serialize"]}
{"id": "C14", "title": "Output sinks: chunking does not change the bytes", "statement": "Writing to an out_sink in chunked mode yields, concatenated over the chunks, exactly the contiguous encoding, for every sequence of non-empty chunks the sink hands out whose total capacity suffices; it fails without overrunning when the sink runs dry. Adaptive mode yields the same bytes in either branch.", "quantifier": "all messages, all chunk size sequences", "why_tests_cant": "chunk boundaries may fall inside any tag, varint or payload: unboundedly many schedules", "anchors": ["include/hpp_proto/binpb/serialize.hpp: chunked_out, serialize_chunked_sink, serialize_contiguous_sink, serialize(sink)"]}
{"id": "C15", "title": "append_binpb keeps what was in the buffer", "statement": "append_binpb(msg, buffer) leaves the previous contents of the buffer as a prefix and puts the encoding of msg after it.", "quantifier": "all buffers and messages", "why_tests_cant": "no test exercises append_binpb; must hold for every previous content", "anchors": ["include/hpp_proto/binpb.hpp: append_binpb", "include/hpp_proto/binpb/serialize.hpp: serialize_contiguous_buffer_with_cache<false>"]}
{"id": "C16", "title": "Segmented input means the same as contiguous input", "statement": "read_binpb of a sequence of byte segments returns the same status class and message as read_binpb of their concatenation, for every way of cutting the input, including empty segments and segments shorter than the 16-byte overlap.", "quantifier": "all inputs, all segmentations, all schemas", "why_tests_cant": "exponentially many cut positions; a cut may fall inside any tag, varint, packed run or length prefix", "anchors": ["include/hpp_proto/binpb/deserialize.hpp: basic_in, set_current_region, maybe_advance_region, split, consume_packed_varints, number_of_varints, deserialize(chunked_byte_range)"]}
{"id": "C17", "title": "The reader never reads outside its buffers", "statement": "Whatever the input bytes, every byte that read_binpb examines lies inside the caller's input or the reader's own patch buffer.", "quantifier": "all inputs (valid or hostile), all segmentations", "why_tests_cant": "the fast path deliberately reads up to ten bytes without a check; safety rests on an invariant about the 16-byte overlap, not on tests", "anchors": ["include/hpp_proto/binpb/deserialize.hpp: basic_in (slope_size, patch_buffer_size), read_tag, deserialize"]}
{"id": "C18", "title": "Parsing always terminates with success or an error", "statement": "read_binpb terminates on every byte string, and on success has consumed exactly all of it.", "quantifier": "all byte strings, all schemas", "why_tests_cant": "non-termination or left-over bytes on some hostile input cannot be excluded by samples", "anchors": ["include/hpp_proto/binpb/deserialize.hpp: deserialize, skip_fields_match_tag, do_skip_group, count_unpacked_elements"]}
{"id": "C19", "title": "Concatenated encodings merge", "statement": "If a and b both parse, then a followed by b parses, and the result is that of parsing b on top of the message parsed from a: singular fields take the last value, repeated fields append, embedded messages merge, oneofs keep the last member.", "quantifier": "all byte strings a, b; all schemas", "why_tests_cant": "runs of equal tags are batched by the parser, and the batch may straddle the seam", "anchors": ["include/hpp_proto/binpb/deserialize.hpp: deserialize, deserialize_unpacked_repeated, skip_fields_match_tag"]}
{"id": "C20", "title": "Unknown fields are preserved", "statement": "When the message type keeps unknown fields, every unknown record of the input (minimal tag) is stored byte for byte in order, and writing the message emits them again; with no storage they are skipped without influencing any known field.", "quantifier": "all inputs, all schemas", "why_tests_cant": "unknown data is arbitrary, including nested groups", "anchors": ["include/hpp_proto/binpb/deserialize.hpp: skip_field, unwind_tag, deserialize_unknown_fields", "include/hpp_proto/binpb/serialize.hpp: serialize_field(pb_unknown_fields)"]}
{"id": "C21", "title": "Packed and unpacked encodings are interchangeable", "statement": "A repeated scalar field decodes to the same list from packed records, unpacked records, or any mixture in the same order, whatever its own declared packing.", "quantifier": "all value lists, all partitions into packed/unpacked records", "why_tests_cant": "partitions are unbounded", "anchors": ["include/hpp_proto/binpb/deserialize.hpp: deserialize_field(range), deserialize_packed_repeated, deserialize_unpacked_repeated"]}
{"id": "C22", "title": "Closed enums divert unknown numbers", "statement": "For a closed-enum field (optional or repeated) a number outside the enum never becomes the field's value: the field keeps its other values and the number is kept among the unknown fields as a well-formed record that decodes to the same number.", "quantifier": "all inputs, all enum value sets", "why_tests_cant": "2^64 wire values", "anchors": ["include/hpp_proto/binpb/deserialize.hpp: deserialize_unknown_enum, deserialize_field(is_enum), deserialize_field(optional), deserialize_packed_repeated_unpadded"]}
{"id": "C23", "title": "Oneof: last member on the wire wins", "statement": "After parsing, a oneof holds the member of its last record, whatever came before; earlier members leave no trace, except that consecutive records of the same message member merge.", "quantifier": "all sequences of oneof records", "why_tests_cant": "order and length of sequences unbounded", "anchors": ["include/hpp_proto/binpb/deserialize.hpp: deserialize_oneof"]}
{"id": "C24", "title": "Map: last entry for a key wins", "statement": "Parsing a map field yields one entry per key with the value of the last entry on the wire for that key; a missing value takes the type's default.", "quantifier": "all sequences of entries", "why_tests_cant": "unbounded sequences with repeated keys", "anchors": ["include/hpp_proto/binpb/deserialize.hpp: deserialize_unpacked_associative_element, deserialize_sized", "include/hpp_proto/binpb/meta.hpp: map_entry"]}
{"id": "C25", "title": "Groups are delimited by the matching end tag", "statement": "A group (known or unknown) ends exactly at the end tag with its own number at its own nesting level; a missing or wrong end tag is an error; skipping an unknown group consumes exactly what parsing it would.", "quantifier": "all inputs, all nestings", "why_tests_cant": "nesting unbounded", "anchors": ["include/hpp_proto/binpb/deserialize.hpp: deserialize_group, do_skip_group"]}
{"id": "C26", "title": "Recursion limit on reading is exact and balanced", "statement": "read_binpb never descends more than limit levels below the root: input nested deeper is refused with value_too_large, input nested no deeper is not refused for that reason; the depth counter is restored afterwards.", "quantifier": "all inputs, all limits below UINT32_MAX", "why_tests_cant": "depth unbounded", "anchors": ["include/hpp_proto/recursion.hpp: recursion_scope", "include/hpp_proto/binpb/deserialize.hpp: deserialize, deserialize_group, do_skip_group"]}
{"id": "C27", "title": "Field dispatch finds exactly the declared field", "statement": "For every message type and every field number, the reader dispatches to the member declared with that number and to the unknown-field path when there is none.", "quantifier": "all field-number lists, all 32-bit numbers", "why_tests_cant": "hash-bucket table built per type: collisions depend on the number set", "anchors": ["include/hpp_proto/binpb/meta.hpp: reverse_indices"]}
{"id": "C28", "title": "Recursion scopes restore the counter", "statement": "For every nesting of recursion scopes, the counter after leaving equals the counter before entering, never exceeds limit+1, and a scope is granted exactly while fewer than limit+1 are active.", "quantifier": "all scope trees, all limits and initial values", "why_tests_cant": "unbounded nestings incl. early exits", "anchors": ["include/hpp_proto/recursion.hpp: recursion_scope"]}
{"id": "C29", "title": "Base64 round trip", "statement": "Decoding the base64 text of any byte string yields that byte string; the text has length 4*ceil(n/3) and uses only the standard alphabet and padding.", "quantifier": "all byte strings", "why_tests_cant": "unbounded length, three tail cases, in-place compaction", "anchors": ["include/hpp_proto/json/base64.hpp: base64::encode, base64::decode, base64::max_encode_size"]}
{"id": "C30", "title": "Base64 rejects malformed text", "statement": "Decoding succeeds only on text whose length is a multiple of four, made of alphabet characters with at most two '=' at the end.", "quantifier": "all strings", "why_tests_cant": "256^n strings", "anchors": ["include/hpp_proto/json/base64.hpp: base64::decode"]}
{"id": "C31", "title": "Duration JSON round trip and range", "statement": "Encoding a google.protobuf.Duration that is in range and sign-consistent and decoding the text yields the same seconds and nanos; values out of range or of mixed sign are refused.", "quantifier": "all (seconds, nanos) pairs", "why_tests_cant": "about 10^21 pairs", "anchors": ["include/hpp_proto/json/duration_codec.hpp: duration_codec::encode, duration_codec::decode"]}
{"id": "C32", "title": "Timestamp JSON round trip", "statement": "Encoding any google.protobuf.Timestamp in 0001-01-01..9999-12-31 with nanos in [0,10^9) and decoding the text yields the same timestamp.", "quantifier": "all representable timestamps", "why_tests_cant": "3*10^20 values; calendar arithmetic", "anchors": ["include/hpp_proto/json/timestamp_codec.hpp: timestamp_codec::encode, timestamp_codec::decode"]}
{"id": "C33", "title": "Timestamp decoding accepts only RFC 3339 UTC text", "statement": "timestamp decode succeeds only on YYYY-MM-DDThh:mm:ss[.fraction]Z with digits in every position and calendar-valid fields.", "quantifier": "all strings", "why_tests_cant": "unbounded strings", "anchors": ["include/hpp_proto/json/timestamp_codec.hpp: parse helpers, decode"]}
{"id": "C34", "title": "FieldMask JSON round trip", "statement": "Encoding a field mask whose paths are lower_snake_case and decoding the text gives back the same list of paths.", "quantifier": "all path lists in the canonical form", "why_tests_cant": "unbounded lists of strings", "anchors": ["include/hpp_proto/json/field_mask_codec.hpp"]}
{"id": "C35", "title": "Merge: empty message is neutral, merge is associative", "statement": "Merging an empty message changes nothing; merging into an empty message gives the source; merging b then c into a equals merging (b merged with c) into a.", "quantifier": "all message triples, all schemas", "why_tests_cant": "unbounded messages; recursion through embedded messages, oneofs and maps", "anchors": ["include/hpp_proto/merge.hpp: message_merger::perform, insert_or_replace"]}
{"id": "C36", "title": "Merge agrees with the wire", "statement": "merge(a, b) equals what one obtains by parsing the encoding of a followed by the encoding of b.", "quantifier": "all well-formed a, b; all schemas", "why_tests_cant": "two independent implementations of the same semantics", "anchors": ["include/hpp_proto/merge.hpp", "include/hpp_proto/binpb/deserialize.hpp"]}
{"id": "C37", "title": "read_binpb replaces the destination", "statement": "read_binpb into an existing message gives the same result as reading into a fresh one, whatever the destination held.", "quantifier": "all previous contents, all inputs", "why_tests_cant": "previous contents arbitrary", "anchors": ["include/hpp_proto/binpb.hpp: read_binpb(T &msg, ...)"]}
{"id": "C38", "title": "optional<bool> keeps three states apart", "statement": "The packed optional<bool> distinguishes empty, false and true under every sequence of assignment, emplace, reset and assignment through its reference proxy.", "quantifier": "all operation sequences", "why_tests_cant": "histories unbounded", "anchors": ["include/hpp_proto/field_types.hpp: optional<bool>, bool_proxy"]}
{"id": "C39", "title": "Arena vectors behave like sequences", "statement": "Under every sequence of push_back, resize, reserve, append and assign operations, a vector drawn from a user arena has the contents a plain sequence would have and never writes past the storage it obtained.", "quantifier": "all operation histories", "why_tests_cant": "histories unbounded; growth reallocations at arbitrary points", "anchors": ["include/hpp_proto/memory_resource_utils.hpp: arena_vector"]}
{"id": "C40", "title": "flat_map is a sorted map under every history", "statement": "After every sequence of insert, emplace, insert_or_assign, operator[], erase and clear, flat_map's keys are strictly sorted and find returns what a mathematical finite map with the same history returns.", "quantifier": "all operation histories, all strict weak (here total) orders", "why_tests_cant": "histories unbounded; hinted insertion has four cases", "anchors": ["include/hpp_proto/flat_map.hpp: try_emplace, insert_or_assign, erase, find, lower_bound"]}
{"id": "C41", "title": "flat_map construction from a range sorts and deduplicates", "statement": "Building a flat_map from any sequence of pairs yields exactly the set of its keys, sorted, each with a value that occurred with that key.", "quantifier": "all pair sequences", "why_tests_cant": "own quicksort over two parallel arrays; unbounded input", "anchors": ["include/hpp_proto/flat_map.hpp: sort_together, partition_together, unique_helper, sort_and_unique_impl"]}
{"id": "C42", "title": "Any pack/unpack", "statement": "unpack_any of a packed message of the same type returns an equal message; unpacking as a different type is refused and a type URL without '/' is refused.", "quantifier": "all messages, all type URLs", "why_tests_cant": "unbounded strings and messages", "anchors": ["include/hpp_proto/binpb.hpp: pack_any, unpack_any"]}
{"id": "C43", "title": "Extensions: set then get", "statement": "Setting an extension on a message and getting it returns an equal value, leaves other extensions untouched, and survives a write/read of the extended message.", "quantifier": "all messages, extensions and values", "why_tests_cant": "histories and values unbounded", "anchors": ["include/hpp_proto/binpb.hpp: extension_base::set_to, get_from, in"]}
{"id": "C44", "title": "Emitted C++ string literals denote the intended bytes", "statement": "The C++ string literal that the generator emits for any byte string is read back by a C++ compiler as exactly those bytes: no escape runs into the next character, no trigraph or terminator is produced.", "quantifier": "all byte strings", "why_tests_cant": "256^n strings; adjacency of escapes matters", "anchors": ["src/protoc-plugin/cpp_lexical_emitter.cpp: string_literal_bytes, make_escape_entry"]}
{"id": "C45", "title": "Emitted comments cannot escape", "statement": "Whatever text is copied into a generated line comment, the comment ends exactly at the line end the generator writes after it: the text cannot end the comment early nor, by a trailing backslash or trigraph, pull in the next line.", "quantifier": "all byte strings", "why_tests_cant": "256^n strings", "anchors": ["src/protoc-plugin/cpp_lexical_emitter.cpp: comment_text"]}
{"id": "C46", "title": "Emitted identifiers are valid and not keywords", "statement": "For any name accepted from a .proto file the emitted C++ identifier is a syntactically valid identifier and not a C++ keyword; distinct names that are not equal up to the escape stay distinct.", "quantifier": "all names", "why_tests_cant": "unbounded strings", "anchors": ["src/protoc-plugin/cpp_lexical_emitter.cpp: identifier::from_proto, safe_identifier"]}
{"id": "C47", "title": "Emitted integer literals have the intended value", "statement": "The C++ integer expression emitted for any int32/int64/uint32/uint64 default value evaluates to that value, including the minimum.", "quantifier": "all values", "why_tests_cant": "2^64 values", "anchors": ["src/protoc-plugin/cpp_lexical_emitter.cpp: signed_integer, unsigned_integer"]}
{"id": "C48", "title": "Descriptor pools reject cyclic imports", "statement": "Building a descriptor pool succeeds the dependency check exactly when the import graph of the files has no cycle.", "quantifier": "all file sets and import graphs", "why_tests_cant": "graphs unbounded", "anchors": ["include/hpp_proto/descriptor_pool.hpp: validate_file_dependency_acyclic"]}
{"id": "C49", "title": "Dynamic messages: storage slots do not alias", "statement": "In a dynamic message, two fields share a storage slot exactly when they are members of the same oneof, and the active member of a oneof is recovered from the slot's stored selector.", "quantifier": "all message descriptors accepted by the factory", "why_tests_cant": "layout computed for arbitrary descriptors", "anchors": ["src/dynamic_message/factory.cpp: setup_oneof_field, setup_non_oneof_field"]}
{"id": "C50", "title": "gRPC byte buffers carry the exact encoding", "statement": "write_binpb to a grpc::ByteBuffer sink produces slices whose concatenation is the contiguous encoding, none longer than the chunk size and with the announced total.", "quantifier": "all messages, all chunk sizes", "why_tests_cant": "sizes unbounded", "anchors": ["include/hpp_proto/grpc/serialization.hpp: byte_buffer_sink, write_binpb"]}
{"id": "C51", "title": "UTF-8 checked strings stay valid in both directions", "statement": "When a string field requires UTF-8 validation, no successful read_binpb leaves in it a byte string that the UTF-8 validator rejects (also inside nested messages, repeated fields, maps and oneofs), and no successful write_binpb emits one.", "quantifier": "all inputs, all messages, all schemas, whatever the (external) validator", "why_tests_cant": "the check sits in one overload of a large overload set; a missed path shows only for particular schemas", "anchors": ["include/hpp_proto/binpb/utf8.hpp: utf8_validation_failed", "include/hpp_proto/binpb/deserialize.hpp: deserialize_field(range), deserialize_packed_repeated_padded", "include/hpp_proto/binpb/serialize.hpp: serialize_field(contiguous_byte_range)"]}
{"id": "C52", "title": "flat_map iterates backwards", "statement": "Iterating a flat_map from rbegin to rend, or from crbegin to crend, visits its entries from the last to the first and no other memory.", "quantifier": "all maps", "why_tests_cant": "sizes unbounded; off-by-one at the ends", "anchors": ["include/hpp_proto/flat_map.hpp: rbegin, rend, crbegin, crend"]}
{"id": "C53", "title": "The default sink mode is safe", "statement": "Writing to an out_sink without a mode option behaves like adaptive mode: it succeeds with the contiguous encoding for every sink that hands out non-empty chunks of sufficient total size, and never writes outside a chunk.", "quantifier": "all messages, all sinks", "why_tests_cant": "depends on the relation of two sizes chosen by message and sink", "anchors": ["include/hpp_proto/binpb/serialize.hpp: serialization_mode_for_context, serialize(sink)", "docs/frontend_apis.md"]}
{"id": "C54", "title": "gRPC chunked mode bounds the slices", "statement": "write_binpb to a grpc::ByteBuffer in chunked mode produces no slice longer than the adapter's chunk size of 1 MiB.", "quantifier": "all messages", "why_tests_cant": "sizes unbounded", "anchors": ["include/hpp_proto/grpc/serialization.hpp: write_binpb", "include/hpp_proto/binpb/serialize.hpp: serialization_mode_for_context"]}
{"id": "C55", "title": "Emitted qualified names", "statement": "A dotted protobuf name is accepted exactly when it is empty or all its segments are acceptable identifiers; the emitted name is the emitted segments joined by ::, and two emitted names are equal only when their segments are.", "quantifier": "all dotted names", "why_tests_cant": "unbounded strings", "anchors": ["src/protoc-plugin/cpp_lexical_emitter.cpp: qualified_name::from_dotted"]}
{"id": "C56", "title": "Emitted include paths", "statement": "The #include operand for a .proto file is the directory prefix, the file name with its last extension replaced, backslashes turned into slashes, between quotes; it is refused exactly when there is no extension or the path has a quote or control character.", "quantifier": "all file names, prefixes and suffixes", "why_tests_cant": "unbounded strings", "anchors": ["src/protoc-plugin/cpp_lexical_emitter.cpp: include_path::from_proto_file, normalized_header_path"]}
{"id": "C57", "title": "File descriptor names do not collide", "statement": "The descriptor of an accepted file lives in a namespace of valid, unreserved names, one per path component; the generator reports no collision exactly when all descriptor variables of the generated files have different names and none is also the name of an enclosing namespace of another.", "quantifier": "all sets of files", "why_tests_cant": "pairs of unbounded path strings", "anchors": ["src/protoc-plugin/cpp_lexical_emitter.cpp: file_descriptor_name::from_proto_file", "src/protoc-plugin/hpp_generator.cpp: validate_file_descriptor_names, qualified_entity_is_prefix_of"]}
{"id": "C58", "title": "String and bytes default values", "statement": "The default value in the generated code of a string or bytes field is the byte string declared in the .proto file.", "quantifier": "all declared default values", "why_tests_cant": "256^n strings", "anchors": ["src/protoc-plugin/hpp_generator.cpp: set_string_default_value, set_bytes_default_value"]}
{"id": "C59", "title": "Padded input", "statement": "With padded_input, when the caller guarantees sixteen readable bytes after the buffer, read_binpb returns the same result as without the option, and never looks at memory beyond those sixteen bytes, whatever the bytes of the buffer are.", "quantifier": "all message types (owning and non-owning), byte strings and paddings of at least sixteen bytes", "why_tests_cant": "the overrun only shows for hostile lengths, and then only as a read of unrelated memory", "anchors": ["include/hpp_proto/binpb/deserialize.hpp: padded_input_archive_base, contiguous_input_archive, read_bytes, deserialize_packed_repeated_padded", "README.md: Optimizing Deserialization with Padded Input"]}
{"id": "C60", "title": "Writing a field of a dynamic message", "statement": "Setting, emplacing or appending to a field of a dynamic message makes that field read back exactly the new value; other members of the same oneof become absent and read as their default; every other field keeps its presence and value.", "quantifier": "every accepted message descriptor, every message state, every field and every value", "why_tests_cant": "Non-interference between any two fields of any schema, including shared oneof storage, cannot be sampled.", "anchors": ["include/hpp_proto/dynamic_message/message_fields.hpp", "include/hpp_proto/dynamic_message/scalar_fields.hpp", "include/hpp_proto/dynamic_message/string_fields.hpp", "include/hpp_proto/dynamic_message/repeated_scalar_fields.hpp", "include/hpp_proto/dynamic_message/repeated_message_fields.hpp"]}
{"id": "C61", "title": "Clearing a field of a dynamic message", "statement": "After a field of a dynamic message is cleared it is absent and reads as its default (no elements if repeated), and no other field changes.", "quantifier": "every accepted message descriptor, every message state and every field", "why_tests_cant": "Requires every combination of field kind, presence and oneof state.", "anchors": ["include/hpp_proto/dynamic_message/message_fields.hpp: clear_field", "include/hpp_proto/dynamic_message/storage.hpp: value_storage::reset"]}
{"id": "C62", "title": "Copying a dynamic message", "statement": "Copying a dynamic message into another gives a message with the same fields present and the same values, at every depth.", "quantifier": "every set of message types and every source and destination that the API can build", "why_tests_cant": "Nested messages of unbounded depth and every combination of present fields.", "anchors": ["include/hpp_proto/dynamic_message/message_fields.hpp: clone_from", "include/hpp_proto/dynamic_message/enum_fields.hpp: alias_from"]}
{"id": "C63", "title": "Reading a dynamic message does not change it", "statement": "Reading a field of a dynamic message, through a const or a mutable reference, changes no field.", "quantifier": "every accepted message descriptor, every message the API can build, every field", "why_tests_cant": "A read that writes is only visible in a later read of another field.", "anchors": ["include/hpp_proto/dynamic_message/enum_fields.hpp: enum_field_mref::value"]}
{"id": "C64", "title": "Dynamic messages are type-safe in every history", "statement": "After any sequence of field operations on a dynamic message, at any depth, every field can be read with the type of its descriptor: shared oneof storage is never read as another member, no element beyond the stored ones and none that was never written is read; at most one member of a oneof is present and has_oneof says whether one is.", "quantifier": "every set of accepted message types and every finite sequence of API calls on a message and the messages inside it", "why_tests_cant": "Memory safety of untagged storage over unbounded histories.", "anchors": ["include/hpp_proto/dynamic_message/storage.hpp", "include/hpp_proto/dynamic_message/message_fields.hpp", "include/hpp_proto/dynamic_message/repeated_scalar_fields.hpp: resize"]}
{"id": "C65", "title": "A dynamic message is written like the generated one", "statement": "Writing a dynamic message gives the same status and, on success, the same bytes as writing the generated message of the same schema that holds the same values, for every recursion limit and output buffer, and never touches memory outside the message, the size cache or the buffer.", "quantifier": "every set of accepted message types, every message that calls of the API build (required fields and map keys and values set), every recursion limit and buffer", "why_tests_cant": "Two independent writers (three passes each) must agree on every schema and every message, including the byte counts they precompute.", "anchors": ["include/hpp_proto/dynamic_message/pb_serializer_ext.hpp: size_cache_counter<message_value_cref>, message_size_calculator<message_value_cref>, field_serializer", "include/hpp_proto/dynamic_message/binpb.hpp: write_binpb", "include/hpp_proto/binpb/serialize.hpp"]}
{"id": "C66", "title": "A dynamic message is read like the generated one", "statement": "For every input, reading a dynamic message ends without undefined behaviour or exception, accepts exactly the inputs the generated reader of the same schema accepts, and afterwards holds what the generated message holds: the same fields set, the same values and elements, map entries with key and value, whatever the message held before.", "quantifier": "every set of accepted message types, every byte string, every recursion limit, every previous content", "why_tests_cant": "Two independent readers must agree on every byte string, including malformed, truncated and hostile ones.", "anchors": ["include/hpp_proto/dynamic_message/pb_serializer_ext.hpp: deserialize", "include/hpp_proto/dynamic_message/binpb.hpp: read_binpb", "include/hpp_proto/binpb/deserialize.hpp"]}
{"id": "C67", "title": "A dynamic message is read back as it was written", "statement": "Every dynamic message that write_binpb accepts is read back by read_binpb, into any message and with the same recursion limit, with the same fields set to the same values and elements at every depth; only fields without presence that were set to their default are no longer set.", "quantifier": "every set of accepted message types, every message built through the field references, every recursion limit, every previous content of buffer and target", "why_tests_cant": "Round trips range over all schemas and all message trees; tests try a few.", "anchors": ["include/hpp_proto/dynamic_message/pb_serializer_ext.hpp", "include/hpp_proto/dynamic_message/binpb.hpp: write_binpb, read_binpb"]}
{"id": "C68", "title": "A callback call reports once", "statement": "A unary async_call with a callback calls the callback exactly once, whatever happens: with the status of the call, or INTERNAL if the request cannot be written or the reply cannot be read. If the status is OK the response is what read_binpb makes of the reply bytes, however they are cut into slices. Its reactor is deleted once and not used afterwards.", "quantifier": "every request, every previous response, every status and reply that gRPC ends the call with", "why_tests_cant": "A test sees one request and one reply; the property is about every way a call can fail.", "anchors": ["include/hpp_proto/grpc/client.hpp: Stub::async_call, ClientCallbackReactor::prepare, CallbackUnaryCall::OnDone", "include/hpp_proto/grpc/serialization.hpp: read_binpb, write_binpb"]}
{"id": "C69", "title": "The server reactor keeps the rules of gRPC", "statement": "Whatever a handler does that follows the documented contract, and in whatever order reads, writes, cancellation and the end of the stream are reported, the server reactor finishes the RPC at most once, has at most one read and one write in flight, and starts nothing after the end; an RPC that the handler finished or left to the framework is finished.", "quantifier": "every handler (any state machine), every method type, every schedule of events", "why_tests_cant": "Races between the end of a read, a failing write and cancellation depend on the schedule; tests run a few.", "anchors": ["include/hpp_proto/grpc/server.hpp: ServerRPC, BasicServerReactor::on_read_done, BasicServerReactor::on_write_done", "docs/grpc-adapter.md"]}
{"id": "C70", "title": "What the client of an RPC is sent", "statement": "Every reply that a handler gives is sent as the bytes write_binpb makes of it, in the order given; a reply that cannot be encoded ends the RPC with INTERNAL; an event left to the framework ends it with CANCELLED if the RPC was cancelled, otherwise with OK at the end of the stream and UNKNOWN after a failed write. Every event reaches the callback of the handler for it, in order. Nothing else is sent.", "quantifier": "every handler, every method type, every reply, every schedule of events", "why_tests_cant": "Order and content over all histories of an RPC; tests run a few.", "anchors": ["include/hpp_proto/grpc/server.hpp: ServerRPC::write, ServerRPC::finish, BasicServerReactor"]}
{"id": "C71", "title": "A descriptor pool is made exactly of well-formed files", "statement": "Making a descriptor pool from a set of files succeeds exactly if the set makes sense: files named and unique, imports present and without cycles, full names of messages and of enums unique, field numbers, types and labels valid, field numbers and names unique in a message, custom JSON names not shared, oneofs with members, every type and extendee named by a field declared. Any other set is refused with an error. The verdict depends neither on the order of the files nor on hash order, and no table of descriptors grows beyond the room reserved for it, which would leave pointers between descriptors dangling.", "quantifier": "every set of file descriptors, every order of the files and of the entries of the hash maps", "why_tests_cant": "The conditions range over all nestings and references; hash order varies between runs; tests load a few files.", "anchors": ["include/hpp_proto/descriptor_pool.hpp: init, descriptor_counter, build, build_fields, resolve_field_types"]}
{"id": "C72", "title": "A descriptor pool shows the files it was made of", "statement": "The descriptors of a pool show every declaration of the files once and nothing else: the messages, enums, extensions and imports of each file and the nested messages, enums, oneofs, fields and extensions of each message, in order of declaration, with full names made of package and enclosing messages, features inherited from the nearest scope that sets them (from the defaults of the syntax or edition at the top), the right file and parent, and with the members of each oneof being the fields that name it, in order.", "quantifier": "every set of files that is accepted, every hash order", "why_tests_cant": "A relation between trees of any shape; tests look at a few descriptors.", "anchors": ["include/hpp_proto/descriptor_pool.hpp: build, build_fields, build_extensions, merge_features, select_features, get_cpp_edition_defaults"]}
{"id": "C73", "title": "Descriptors are found by name and number, and types are resolved", "statement": "Looking up a full name in a pool gives the message, enum or file with that name if there is one and nothing otherwise; a field of a message is found by its number and by its name; the type of a field is the message or enum its definition names, it is marked a map exactly if that message is a map entry, and the extendee of an extension is the message named.", "quantifier": "every accepted set of files, every name and number looked up", "why_tests_cant": "All names against all pools; tests look up a few.", "anchors": ["include/hpp_proto/descriptor_pool.hpp: get_message_descriptor, get_enum_descriptor, get_file_descriptor, resolve_field_types, find_type", "include/hpp_proto/dynamic_message/message_fields.hpp: field_descriptor_by_name, field_descriptor_by_number"]}
{"id": "C74", "title": "The flags of a field follow the rules of protobuf", "statement": "Whether a field is repeated, required, packed, delimited, checked for UTF-8 and whether it has presence follows from its definition and its features as protobuf defines it.", "quantifier": "every field and extension of every accepted set of files", "why_tests_cant": "The flags depend on type, label, options, syntax and features set at any level; tests cover a few combinations.", "anchors": ["include/hpp_proto/descriptor_pool.hpp: setup_presence, setup_repeated, setup_utf8_validation, setup_delimited, setup_required, build_fields"]}
{"id": "C75", "title": "JSON keys lead back to their fields", "statement": "The key under which a field of a dynamic message is written to JSON is read back as that field.", "quantifier": "every message of every accepted set of files, every field, with and without preserve_proto_field_names", "why_tests_cant": "Depends on all pairs of names in a message; tests use a few messages.", "anchors": ["include/hpp_proto/descriptor_pool.hpp: build_fields", "include/hpp_proto/dynamic_message/json.hpp: preserve_proto_field_names, field_descriptor_by_json_name", "include/hpp_proto/dynamic_message/message_fields.hpp: field_descriptor_by_json_name, field_descriptor_by_name"]}
{"id": "C76", "title": "write_json writes the ProtoJSON form of a message", "statement": "With any combination of indentation and preserve_proto_field_names, writing a dynamic message as JSON succeeds if the message has a ProtoJSON form and is nested no deeper than the limit, and what is written is JSON by RFC 8259 that denotes this form: the fields that have a value under their JSON names, 64-bit integers and map keys as strings, enums by name, bytes in base64, maps as objects, and the special forms of Timestamp, Duration, FieldMask, Struct, Value, ListValue and the wrappers.", "quantifier": "every message type (Any excepted), every message, every option", "why_tests_cant": "Messages nest to any depth and hold any bytes; tests compare a few texts.", "anchors": ["include/hpp_proto/dynamic_message/json.hpp: to<JSON, message_value_cref>, from<JSON, message_value_mref>, field and repeated overloads", "include/hpp_proto/json/util.hpp: parse_repeated, util::parse_null, match_ending", "include/hpp_proto/json.hpp: write_json, read_json"]}
{"id": "C77", "title": "JSON round trip of dynamic messages", "statement": "What write_json writes for a dynamic message, with any options, read_json reads into a message with the same values in the same fields, at every depth.", "quantifier": "every message type (Any excepted), every message with a ProtoJSON form, every option", "why_tests_cant": "As above, for two programs together.", "anchors": ["include/hpp_proto/dynamic_message/json.hpp: to<JSON, message_value_cref>, from<JSON, message_value_mref>, field and repeated overloads", "include/hpp_proto/json/util.hpp: parse_repeated, util::parse_null, match_ending", "include/hpp_proto/json.hpp: write_json, read_json"]}
{"id": "C78", "title": "read_json accepts every JSON spelling of a message", "statement": "Whatever the whitespace, the order of members, the choice between JSON names and proto names, escapes in string values, enum names or numbers, null for fields that are unset, [] or {} for repeated fields and maps that are empty: read_json accepts the text and the message holds what the text says.", "quantifier": "every message type (Any excepted), every JSON text of every message", "why_tests_cant": "Spellings combine without bound; tests use a few.", "anchors": ["include/hpp_proto/dynamic_message/json.hpp: to<JSON, message_value_cref>, from<JSON, message_value_mref>, field and repeated overloads", "include/hpp_proto/json/util.hpp: parse_repeated, util::parse_null, match_ending", "include/hpp_proto/json.hpp: write_json, read_json"]}
{"id": "C79", "title": "Reading any bytes as JSON is defined", "statement": "Whatever bytes read_json is given, it returns a message or an error; it never dereferences a null pointer, and in the message returned the value of every field is defined.", "quantifier": "every message type, every earlier state of the message, every byte string", "why_tests_cant": "Hostile inputs; fuzzing samples them.", "anchors": ["include/hpp_proto/dynamic_message/json.hpp: to<JSON, message_value_cref>, from<JSON, message_value_mref>, field and repeated overloads", "include/hpp_proto/json/util.hpp: parse_repeated, util::parse_null, match_ending", "include/hpp_proto/json.hpp: write_json, read_json"]}
{"id": "C80", "title": "Texts that are not JSON, or have unknown keys, are rejected", "statement": "read_json reports an error for a text that is not JSON by RFC 8259, that goes on after the message, or that has a member no field is named by.", "quantifier": "every message type, every byte string", "why_tests_cant": "As above.", "anchors": ["include/hpp_proto/dynamic_message/json.hpp: to<JSON, message_value_cref>, from<JSON, message_value_mref>, field and repeated overloads", "include/hpp_proto/json/util.hpp: parse_repeated, util::parse_null, match_ending", "include/hpp_proto/json.hpp: write_json, read_json"]}
{"id": "C81", "title": "Whatever can be built can be written as JSON and read back", "statement": "For every message that calls of the dynamic API can build, write_json reports an error, or writes JSON that read_json reads back with the same fields set; it is never undefined.", "quantifier": "every history of calls on a dynamic message, every option", "why_tests_cant": "Histories leave wrappers, values and map entries half built; tests build complete messages.", "anchors": ["include/hpp_proto/dynamic_message/json.hpp: to<JSON, message_value_cref>, from<JSON, message_value_mref>, field and repeated overloads", "include/hpp_proto/json/util.hpp: parse_repeated, util::parse_null, match_ending", "include/hpp_proto/json.hpp: write_json, read_json"]}
{"id": "C82", "title": "Other ProtoJSON spellings, and the previous contents of the target", "statement": "Keys may be spelled with escapes; integers may be quoted or not; null leaves other fields alone; reading replaces what the message held before.", "quantifier": "every message type, text and earlier state", "why_tests_cant": "Interactions of spellings and earlier contents.", "anchors": ["include/hpp_proto/dynamic_message/json.hpp: to<JSON, message_value_cref>, from<JSON, message_value_mref>, field and repeated overloads", "include/hpp_proto/json/util.hpp: parse_repeated, util::parse_null, match_ending", "include/hpp_proto/json.hpp: write_json, read_json"]}
{"id": "C83", "title": "protoc-gen-hpp ends and defines every message once", "statement": "For every set of proto files, however messages nest and refer to each other, writing the message header of a file ends, and the header defines every message of the file exactly once.", "quantifier": "every schema a compiler delivers, with any nesting, any cycles, any number of files", "why_tests_cant": "Orders and cycles are found by a loop that stops only when every dependency is resolved; schemas are unbounded, tests have a few.", "anchors": ["src/protoc-plugin/hpp_generator.cpp: resolve_dependency_impl, add_dependency, order_messages, resolve_container_dependency_cycle, resolve_dependency_cycle, mark_field_recursive, msg_code_generator::process(message_descriptor_t)", "docs/Code_Generation_Guide.md"]}
{"id": "C84", "title": "Generated headers declare types before they use them", "statement": "In a header protoc-gen-hpp writes, every message or enum named by a member of a struct is declared or defined before the struct, or comes from an imported header.", "quantifier": "every schema a compiler delivers, with any nesting, any cycles, any number of files", "why_tests_cant": "The order depends on all of the dependencies.", "anchors": ["src/protoc-plugin/hpp_generator.cpp: resolve_dependency_impl, add_dependency, order_messages, resolve_container_dependency_cycle, resolve_dependency_cycle, mark_field_recursive, msg_code_generator::process(message_descriptor_t)", "docs/Code_Generation_Guide.md"]}
{"id": "C85", "title": "Generated structs have finite size", "statement": "Messages that refer to each other become structs none of which contains an object of its own type, directly or through others: every cycle of fields goes through a container or indirection.", "quantifier": "every schema a compiler delivers, with any nesting, any cycles, any number of files", "why_tests_cant": "Cycles are unbounded in number and length; tests have a few.", "anchors": ["src/protoc-plugin/hpp_generator.cpp: resolve_dependency_impl, add_dependency, order_messages, resolve_container_dependency_cycle, resolve_dependency_cycle, mark_field_recursive, msg_code_generator::process(message_descriptor_t)", "docs/Code_Generation_Guide.md"]}
{"id": "C86", "title": "optional_indirect has value semantics", "statement": "An optional_indirect (the type of recursive message fields) behaves as an optional value: a copy or move gives the target the value the source had and changes nothing else, swap exchanges two values, reset and emplace set one, and two are equal exactly if their values are. This holds at every point of every program, for any allocator, at any depth of nesting, also if source and target are parts of the same value.", "quantifier": "every sequence of operations on variables and on members at any depth, any allocator, any allocations that throw", "why_tests_cant": "Values are trees of any depth and programs are unbounded; a test has a few objects and the standard allocator.", "anchors": ["include/hpp_proto/optional_indirect.hpp: optional_indirect (constructors, operator=, swap, reset, emplace, operator==)"]}
{"id": "C87", "title": "optional_indirect owns what is allocated, once", "statement": "At every point of every program, also after exceptions, the allocated objects are exactly those that some optional_indirect owns, each is owned once, and will be freed by an allocator equal to the one it came from; when all variables are gone, nothing is allocated.", "quantifier": "as above", "why_tests_cant": "As above; a leak or a free with another allocator is visible only on some path of failures.", "anchors": ["include/hpp_proto/optional_indirect.hpp: optional_indirect (constructors, operator=, swap, reset, emplace, operator==)"]}
{"id": "C88", "title": "Exceptions leave optional_indirect intact", "statement": "If an allocation throws, copying, assigning by copy and emplace leave all values as they were; moving and swapping change at most the two operands, and never throw if allocators are all equal (or, for moves, propagated); nothing throws unless an allocation does.", "quantifier": "as above", "why_tests_cant": "Every allocation of a deep copy is a place to fail; tests try none or one.", "anchors": ["include/hpp_proto/optional_indirect.hpp: optional_indirect (constructors, operator=, swap, reset, emplace, operator==)"]}
{"id": "C89", "title": "Generated headers never declare a name twice", "statement": "If the generator accepts a set of schemas, then in the headers it writes for them no two declarations contradict each other: no name is declared twice in one scope (unless both open a namespace or are overloads), every declared name is a C++ identifier that is neither a keyword nor kept for the implementation, and no name in the global namespace begins with an underscore.", "quantifier": "every set of files, with any messages nested to any depth, enums, oneofs, extensions, maps and services, under any names", "why_tests_cant": "Names come from users; a clash needs the right pair of names in the right pair of scopes, and there are unboundedly many.", "anchors": ["src/protoc-plugin/hpp_generator.cpp: validate_generated_names, validate_message_members, validate_oneof_helpers, validate_namespace_declarations, validate_enum_values, msg_code_generator::process, service_generator::process, format_extension"]}
{"id": "C90", "title": "JSON of generated messages is the ProtoJSON form", "statement": "write_json of a generated message that has a JSON form succeeds with every option, and what it writes is JSON by RFC 8259 that denotes the ProtoJSON form of the message: names, 64-bit integers in quotes, enums by name, base64, maps as objects, well-known types, fields with the default value shown or left out as the options say.", "quantifier": "every message of every generated class, every option, nesting and contents", "why_tests_cant": "Messages, nestings and contents are unbounded; a wrong quote shows only for some type in some position.", "anchors": ["include/hpp_proto/json.hpp: write_json, read_json, to/from of optional, optional_ref, oneof_wrapper, timestamp_codec, duration_codec, field_mask_codec", "include/hpp_proto/json/util.hpp: from_json, parse_null, parse_repeated, parse_key_and_colon, scan_object_fields, number_of_elements", "include/hpp_proto/json/field_wrappers.hpp: optional_ref, oneof_wrapper", "src/protoc-plugin/hpp_generator.cpp: glaze_meta_generator (1815-2279)"]}
{"id": "C91", "title": "read_json of a generated message accepts every spelling of the JSON form", "statement": "Every JSON text (any whitespace, escapes, order of members, either name of a field, enum numbers or names, null for what has its initial value) of a JSON value that stands for a message is accepted, and the message given, whatever it held before, is then exactly that message.", "quantifier": "every generated class, message, JSON value for it, spelling of this value and earlier content", "why_tests_cant": "There are unboundedly many spellings of every message, and any content may be there before.", "anchors": ["include/hpp_proto/json.hpp: write_json, read_json, to/from of optional, optional_ref, oneof_wrapper, timestamp_codec, duration_codec, field_mask_codec", "include/hpp_proto/json/util.hpp: from_json, parse_null, parse_repeated, parse_key_and_colon, scan_object_fields, number_of_elements", "include/hpp_proto/json/field_wrappers.hpp: optional_ref, oneof_wrapper", "src/protoc-plugin/hpp_generator.cpp: glaze_meta_generator (1815-2279)"]}
{"id": "C92", "title": "JSON round trip of generated messages", "statement": "What write_json writes for a generated message, with any options, is read back by read_json as the same message; so two messages that are written as the same text are equal.", "quantifier": "every message of every generated class that has a JSON form, every option", "why_tests_cant": "A loss shows only for particular values in particular kinds of fields.", "anchors": ["include/hpp_proto/json.hpp: write_json, read_json, to/from of optional, optional_ref, oneof_wrapper, timestamp_codec, duration_codec, field_mask_codec", "include/hpp_proto/json/util.hpp: from_json, parse_null, parse_repeated, parse_key_and_colon, scan_object_fields, number_of_elements", "include/hpp_proto/json/field_wrappers.hpp: optional_ref, oneof_wrapper", "src/protoc-plugin/hpp_generator.cpp: glaze_meta_generator (1815-2279)"]}
{"id": "C93", "title": "JSON of generated and of dynamic messages is the same language", "statement": "What is written for a dynamic message is read by the generated class as the message with the same JSON form, and the other way round.", "quantifier": "every pair of a dynamic and a generated message with a JSON form in common, every option of either writer", "why_tests_cant": "Two writers and two readers, written separately, must agree on unboundedly many messages.", "anchors": ["include/hpp_proto/json.hpp: write_json, read_json, to/from of optional, optional_ref, oneof_wrapper, timestamp_codec, duration_codec, field_mask_codec", "include/hpp_proto/json/util.hpp: from_json, parse_null, parse_repeated, parse_key_and_colon, scan_object_fields, number_of_elements", "include/hpp_proto/json/field_wrappers.hpp: optional_ref, oneof_wrapper", "src/protoc-plugin/hpp_generator.cpp: glaze_meta_generator (1815-2279)", "include/hpp_proto/dynamic_message/json.hpp"]}
{"id": "C94", "title": "Reading JSON into a generated message is defined for all bytes", "statement": "Whatever bytes read_json gets for a generated message, it succeeds or reports an error; it never uses a value that is not there and always ends.", "quantifier": "every generated class, every sequence of bytes", "why_tests_cant": "Input is arbitrary, usually from the network.", "anchors": ["include/hpp_proto/json.hpp: write_json, read_json, to/from of optional, optional_ref, oneof_wrapper, timestamp_codec, duration_codec, field_mask_codec", "include/hpp_proto/json/util.hpp: from_json, parse_null, parse_repeated, parse_key_and_colon, scan_object_fields, number_of_elements", "include/hpp_proto/json/field_wrappers.hpp: optional_ref, oneof_wrapper", "src/protoc-plugin/hpp_generator.cpp: glaze_meta_generator (1815-2279)"]}
{"id": "C95", "title": "The generated is_valid of an enum accepts exactly its numbers", "statement": "The function is_valid that is generated for an enum returns true for the numbers of the enum and for no others, whatever the numbers and their order, with or without aliases.", "quantifier": "every list of enum numbers and every number", "why_tests_cant": "A list can be continuous or not in unboundedly many ways, and the generated body depends on it.", "anchors": ["src/protoc-plugin/hpp_generator.cpp: enum_descriptor, process(enum_descriptor_t)"]}
{"id": "C96", "title": "Generated classes have the fields of the schema", "statement": "For every accepted set of files, the class generated for a message has an entry for each of its fields and no others, with the wire encoding that the field's type and features ask for, held as its label and presence ask for (list, map, optional, required, plain), oneofs together and in order.", "quantifier": "every set of files accepted by the descriptor pool and by protoc, every message, field number, trait", "why_tests_cant": "Types, labels, features, oneofs and syntaxes combine in more ways than any test schema has.", "anchors": ["src/protoc-plugin/hpp_generator.cpp: set_cpp_type, set_default_value, set_presence_rule, meta_options, emit_closed_enum_validation, process(field_descriptor_t), process(oneof_descriptor_t), process(message_descriptor_t)", "include/hpp_proto/binpb/meta.hpp: field_meta, oneof_field_meta, map_entry", "include/hpp_proto/binpb/serialize.hpp", "include/hpp_proto/binpb/deserialize.hpp"]}
{"id": "C97", "title": "The option proto2_explicit_presence selects fields by scope and loses no values", "statement": "With the option, an optional field of a proto2 message has presence exactly if one of the scopes given contains it; and whatever the option, a field that the writer omits has, after reading, the value it had.", "quantifier": "every set of files, every list of scopes, every field", "why_tests_cant": "Scopes and names are arbitrary strings.", "anchors": ["src/protoc-plugin/hpp_generator.cpp: set_cpp_type, set_default_value, set_presence_rule, meta_options, emit_closed_enum_validation, process(field_descriptor_t), process(oneof_descriptor_t), process(message_descriptor_t)", "include/hpp_proto/binpb/meta.hpp: field_meta, oneof_field_meta, map_entry", "include/hpp_proto/binpb/serialize.hpp", "include/hpp_proto/binpb/deserialize.hpp"]}
{"id": "C98", "title": "Round trip for every schema", "statement": "For every set of files, the class generated for any of its messages writes every object so that the same class reads the same object back.", "quantifier": "every set of files, options, message, object, earlier content of the object read into", "why_tests_cant": "Generated code is tested on a few schemas only; it must work for all.", "anchors": ["src/protoc-plugin/hpp_generator.cpp: set_cpp_type, set_default_value, set_presence_rule, meta_options, emit_closed_enum_validation, process(field_descriptor_t), process(oneof_descriptor_t), process(message_descriptor_t)", "include/hpp_proto/binpb/meta.hpp: field_meta, oneof_field_meta, map_entry", "include/hpp_proto/binpb/serialize.hpp", "include/hpp_proto/binpb/deserialize.hpp"]}
{"id": "C99", "title": "Generated classes keep unknown fields", "statement": "If the traits keep unknown fields, what a generated class reads but does not know it writes again; for messages with extension ranges by field number.", "quantifier": "every set of files, message and choice of traits", "why_tests_cant": "Every schema has its own class; tests cover few.", "anchors": ["src/protoc-plugin/hpp_generator.cpp: set_cpp_type, set_default_value, set_presence_rule, meta_options, emit_closed_enum_validation, process(field_descriptor_t), process(oneof_descriptor_t), process(message_descriptor_t)", "include/hpp_proto/binpb/meta.hpp: field_meta, oneof_field_meta, map_entry", "include/hpp_proto/binpb/serialize.hpp", "include/hpp_proto/binpb/deserialize.hpp"]}
{"id": "C100", "title": "The answer of protoc-gen-hpp has exactly the headers of the requested files", "statement": "For every request, protoc-gen-hpp answers either with an error and no files, or with exactly the headers of the requested files (.msg.hpp, .pb.hpp, .glz.hpp, .desc.hpp if the file has messages, .service.hpp if it has services), in order, under different paths; asking for a file that is not in the request is an error.", "quantifier": "every request: files, names, imports, files to generate", "why_tests_cant": "File names and sets of files are unbounded.", "anchors": ["src/protoc-plugin/hpp_generator.cpp: hpp_generator::generate, generate_requested_files, generate_outputs_for_file, generated_include, get_dependency_names, parse_plugin_options, msg_code_generator, hpp_meta_generator, glaze_meta_generator, desc_hpp_generator, service_generator"]}
{"id": "C101", "title": "Generated headers include what they need, what they include exists, and no header includes itself", "statement": "A generated header includes the headers of its own file it builds on and the corresponding headers of all imports, nothing else; the included headers are generated if their files are requested; no chain of includes leads back to its start.", "quantifier": "every request that is answered without error, every header", "why_tests_cant": "Include chains have any length and shape.", "anchors": ["src/protoc-plugin/hpp_generator.cpp: hpp_generator::generate, generate_requested_files, generate_outputs_for_file, generated_include, get_dependency_names, parse_plugin_options, msg_code_generator, hpp_meta_generator, glaze_meta_generator, desc_hpp_generator, service_generator"]}
{"id": "C102", "title": "Descriptor sets are complete and without duplicates", "statement": "The descriptor in a .desc.hpp is the descriptor of the file, byte for byte; the descriptor set names the descriptors of the file and of everything it imports, directly or not, each once, and nothing else.", "quantifier": "every request that is answered without error, every file with messages", "why_tests_cant": "Import graphs have any shape, with files reached along any number of paths.", "anchors": ["src/protoc-plugin/hpp_generator.cpp: hpp_generator::generate, generate_requested_files, generate_outputs_for_file, generated_include, get_dependency_names, parse_plugin_options, msg_code_generator, hpp_meta_generator, glaze_meta_generator, desc_hpp_generator, service_generator"]}
{"id": "C103", "title": "Options of protoc-gen-hpp have the effect asked for", "statement": "Whatever the parameter text, the options are those it asks for: the last value of each key, all values of proto2_explicit_presence, unknown keys without effect; an error exactly if some namespace_prefix is no name.", "quantifier": "every parameter text", "why_tests_cant": "The parameter is an arbitrary string.", "anchors": ["src/protoc-plugin/hpp_generator.cpp: hpp_generator::generate, generate_requested_files, generate_outputs_for_file, generated_include, get_dependency_names, parse_plugin_options, msg_code_generator, hpp_meta_generator, glaze_meta_generator, desc_hpp_generator, service_generator"]}
{"id": "C104", "title": "Generated services have every method with its path, kind, number and types", "statement": "The service header has each method of each service in order, with the path that gRPC calls it by, its kind of streaming, its number and the C++ types of request and response; different methods have different paths.", "quantifier": "every request that is answered without error, every service and method", "why_tests_cant": "Services, methods and names are unbounded.", "anchors": ["src/protoc-plugin/hpp_generator.cpp: hpp_generator::generate, generate_requested_files, generate_outputs_for_file, generated_include, get_dependency_names, parse_plugin_options, msg_code_generator, hpp_meta_generator, glaze_meta_generator, desc_hpp_generator, service_generator"]}
{"id": "C105", "title": "Messages with google.protobuf.Any are written as ProtoJSON", "statement": "A dynamic message with Any at any depth (in fields, lists, maps, inside the payload of other Anys) is written as JSON text that denotes the ProtoJSON form of the message: an Any is the object of its payload with a member @type, or an object with @type and value if the payload is of a well-known type.", "quantifier": "every schema, every type lookup, every message and nesting of Anys, every layout option", "why_tests_cant": "Anys nest in payloads of arbitrary types to any depth.", "anchors": ["include/hpp_proto/dynamic_message/json.hpp: any_message_json_serializer, generic_message_json_serializer, dynamic_protojson_traversal, message_name_from_type_url, binpb_to_json, json_to_binpb"]}
{"id": "C106", "title": "JSON with google.protobuf.Any is read, wherever @type is", "statement": "Every JSON text that stands for a message with Anys whose payloads have an encoding, in any order of members, with any whitespace and escapes, is read; the message then holds what the text says, the payload of each Any as the encoding of a message that holds the same.", "quantifier": "every schema, type lookup, message, order of members and spelling", "why_tests_cant": "Spellings, orders and nesting are unbounded.", "anchors": ["include/hpp_proto/dynamic_message/json.hpp: any_message_json_serializer, generic_message_json_serializer, dynamic_protojson_traversal, message_name_from_type_url, binpb_to_json, json_to_binpb"]}
{"id": "C107", "title": "JSON round trip of google.protobuf.Any", "statement": "Whatever message with Anys is written as JSON is read back as a message that holds the same.", "quantifier": "every schema, type lookup and message reached through the API", "why_tests_cant": "Histories of messages and nestings of Anys are unbounded.", "anchors": ["include/hpp_proto/dynamic_message/json.hpp: any_message_json_serializer, generic_message_json_serializer, dynamic_protojson_traversal, message_name_from_type_url, binpb_to_json, json_to_binpb"]}
{"id": "C108", "title": "The URL of an Any decides the type of its payload", "statement": "Reading accepts an Any only if its @type has a slash followed by the full name of a known type, and then stores a valid encoding of a message of that type; writing accepts an Any only if it is empty or its URL names a known type and its value is an encoding of a message of that type.", "quantifier": "every schema and type lookup, every input text, every stored URL and value, every depth", "why_tests_cant": "URLs, payloads and texts are arbitrary bytes.", "anchors": ["include/hpp_proto/dynamic_message/json.hpp: any_message_json_serializer, generic_message_json_serializer, dynamic_protojson_traversal, message_name_from_type_url, binpb_to_json, json_to_binpb"]}
{"id": "C109", "title": "binpb_to_json and json_to_binpb convert without loss", "statement": "Converting the encoding of a message of a known type to JSON gives text that denotes the message; converting this back gives the encoding of a message that holds the same.", "quantifier": "every schema, type, encoding and nesting of Anys", "why_tests_cant": "Encodings of messages are unbounded.", "anchors": ["include/hpp_proto/dynamic_message/json.hpp: any_message_json_serializer, generic_message_json_serializer, dynamic_protojson_traversal, message_name_from_type_url, binpb_to_json, json_to_binpb"]}
{"id": "C110", "title": "Which sets of files a dynamic message factory accepts", "statement": "A factory is made exactly from the well-formed sets of files whose oneofs have their members side by side and whose default values can be used; every other set is rejected with an error. A message is found by name exactly if it is declared, it then has the declared fields in order with their names, numbers and oneofs, and none is set.", "quantifier": "every set of files, every order of hash maps, every name", "why_tests_cant": "Schemas are unbounded trees of declarations.", "anchors": ["src/dynamic_message/factory.cpp: dynamic_message_factory_impl, finalize_resolved_field_infos, setup_enum_field_default_value, create_from_descs, get_message", "include/hpp_proto/dynamic_message/factory_addons.hpp: parse_default_value, set_default_value, enum_descriptor"]}
{"id": "C111", "title": "Messages of a factory are read and written as declared", "statement": "For every accepted set of files as compilers produce them: fields hold values of the declared types, any bytes are read into a message or rejected with an error, and what a message holds is read back from what is written of it.", "quantifier": "every set of files, every input, every message, every recursion limit", "why_tests_cant": "Schemas, inputs and messages are unbounded.", "anchors": ["src/dynamic_message/factory.cpp: dynamic_message_factory_impl, finalize_resolved_field_infos, setup_enum_field_default_value, create_from_descs, get_message", "include/hpp_proto/dynamic_message/factory_addons.hpp: parse_default_value, set_default_value, enum_descriptor"]}
{"id": "C112", "title": "No accepted schema makes reading or writing undefined", "statement": "If a factory accepts a set of files then no input bytes or text and no message make a function of the library run into undefined behaviour; in particular every map entry is a pair of key and value.", "quantifier": "every accepted set of files", "why_tests_cant": "Accepted sets include ones that no compiler produces, and come from bytes that can be received.", "anchors": ["src/dynamic_message/factory.cpp: dynamic_message_factory_impl, finalize_resolved_field_infos, setup_enum_field_default_value, create_from_descs, get_message", "include/hpp_proto/dynamic_message/factory_addons.hpp: parse_default_value, set_default_value, enum_descriptor", "include/hpp_proto/dynamic_message/json.hpp: map_entry_message_json_adapter", "include/hpp_proto/dynamic_message/pb_serializer_ext.hpp: deserialize"]}
{"id": "C113", "title": "A dynamic field that is not set reads as its default value", "statement": "A field with presence that is not set reads as the default value that its descriptor declares: the number, the string, the bytes, the bool or the value of the enum, else the first value of an enum, else zero.", "quantifier": "every accepted set of files, every field, every message in which it is not set", "why_tests_cant": "Default texts and types are unbounded.", "anchors": ["src/dynamic_message/factory.cpp: dynamic_message_factory_impl, finalize_resolved_field_infos, setup_enum_field_default_value, create_from_descs, get_message", "include/hpp_proto/dynamic_message/factory_addons.hpp: parse_default_value, set_default_value, enum_descriptor", "include/hpp_proto/dynamic_message/bytes_fields.hpp: default_value"]}
{"id": "C114", "title": "JSON of the messages of a factory", "statement": "For every accepted set of files as compilers produce them, with names that need no escapes: a message that has a JSON form is written as a text of that form, every text of the form is read to a message that holds the same, and the conversions between binary and JSON agree, also with google.protobuf.Any, whose type URLs are resolved by the same factory.", "quantifier": "every set of files, every message, every text, every recursion limit", "why_tests_cant": "Schemas, messages and texts are unbounded.", "anchors": ["src/dynamic_message/factory.cpp: setup_wellknown_types_impl, finalize_resolved_field_infos", "include/hpp_proto/dynamic_message/factory_addons.hpp: file_descriptor, wellknown_validated_", "include/hpp_proto/dynamic_message/json.hpp: read_json, write_json, binpb_to_json, json_to_binpb"]}
{"id": "C115", "title": "Which message types get the JSON form of well-known types", "statement": "A message of a factory gets the JSON form of a well-known type if and only if it has the full name of that type and its file is the one built into the library; a message of that name from any other file is an ordinary message.", "quantifier": "every accepted set of files, every message in it", "why_tests_cant": "Any set of files can declare messages of any name.", "anchors": ["src/dynamic_message/factory.cpp: setup_wellknown_types_impl, finalize_resolved_field_infos", "include/hpp_proto/dynamic_message/factory_addons.hpp: file_descriptor, wellknown_validated_", "include/hpp_proto/dynamic_message/json.hpp: read_json, write_json, binpb_to_json, json_to_binpb"]}
{"id": "C116", "title": "Whatever is read can be written and read back", "statement": "Every message that read_binpb accepts can be written with write_binpb (below 2 GiB, and with as many more levels as default values of members without presence need), and reading what was written gives the same message, except that -0.0 in a member without presence becomes 0.0.", "quantifier": "every message type, every byte string, every recursion limit", "why_tests_cant": "The input is arbitrary; tests write messages that a program made.", "anchors": ["include/hpp_proto/binpb/deserialize.hpp: read_binpb", "include/hpp_proto/binpb/serialize.hpp: write_binpb"]}
{"id": "C117", "title": "Making a message factory from bytes", "statement": "Any byte string ends in a factory or one of two errors: a deserialization error if and only if the bytes are no FileDescriptorSet, a validation error if and only if the files in it make no sense. A written set makes the factory of its files. Serialized files make the same factory as the set of them, unless one is nested so deeply that it fits the recursion limit only by itself; the same file twice is rejected.", "quantifier": "every byte string, every list of serialized files, every set of files with at most 96 levels of nested messages", "why_tests_cant": "The input is arbitrary bytes.", "anchors": ["src/dynamic_message/factory.cpp: create_from_binpb, create_from_descs, initialize", "include/hpp_proto/descriptor_pool.hpp: make_file_descriptor_set", "include/hpp_proto/dynamic_message/factory_addons.hpp: file_descriptor, wellknown_validated_"]}
{"id": "C118", "title": "Which serialized files count as the built-in files", "statement": "A message of a factory made from bytes gets the JSON form of a well-known type if and only if it has the name of one and the descriptor of its file equals the one built into the library in every member that is read, apart from source information and the sign of zeros in uninterpreted options.", "quantifier": "every byte string that makes a factory, every message in it", "why_tests_cant": "Files that differ in any way from the built-in ones are unbounded in number.", "anchors": ["src/dynamic_message/factory.cpp: create_from_binpb, create_from_descs, initialize", "include/hpp_proto/descriptor_pool.hpp: make_file_descriptor_set", "include/hpp_proto/dynamic_message/factory_addons.hpp: file_descriptor, wellknown_validated_"]}
{"id": "C119", "title": "Optional members have a value or not", "statement": "After every history of constructions, assignments, moves, swaps, emplace and reset, an optional member has a value if and only if it was given one since, it is the one last given, an absent one reads as its default value, and two are equal if and only if both are absent or both have equal values.", "quantifier": "every type and default value, every history over any number of objects", "why_tests_cant": "Histories are unbounded; the default value is kept in the same member as the value.", "anchors": ["include/hpp_proto/field_types.hpp: optional"]}
{"id": "C120", "title": "Repeated fields of dynamic messages are independent lists", "statement": "After every history of reserve, resize, push_back (also of an own element), assignment to elements, set (also from a part of the field itself), clear, reset, adopt and clone_from, on any number of fields, each field contains exactly what the same history of independent lists contains.", "quantifier": "every history over any number of fields of numbers, enums, strings or bytes", "why_tests_cant": "Contents depend on when blocks are reallocated and reused, over unbounded histories.", "anchors": ["include/hpp_proto/dynamic_message/repeated_scalar_fields.hpp: repeated_scalar_field_mref", "include/hpp_proto/dynamic_message/repeated_enum_fields.hpp: repeated_enum_field_mref", "include/hpp_proto/dynamic_message/repeated_string_fields.hpp: repeated_string_field_mref"]}
{"id": "C121", "title": "Changing a repeated field does not change another", "statement": "An operation on one repeated field never changes another one, also not after alias_from, which lets two fields refer to the same elements.", "quantifier": "every history over any number of fields", "why_tests_cant": "Sharing arises in histories of any length.", "anchors": ["include/hpp_proto/dynamic_message/repeated_scalar_fields.hpp: repeated_scalar_field_mref", "include/hpp_proto/dynamic_message/repeated_enum_fields.hpp: repeated_enum_field_mref", "include/hpp_proto/dynamic_message/repeated_string_fields.hpp: repeated_string_field_mref"]}
{"id": "C122", "title": "Memory of appending to repeated fields", "statement": "Appending within the reserved capacity allocates nothing and keeps references to elements valid; appending n elements takes memory proportional to n.", "quantifier": "every history, every number of elements", "why_tests_cant": "The number of elements is unbounded.", "anchors": ["include/hpp_proto/dynamic_message/repeated_scalar_fields.hpp: repeated_scalar_field_mref", "include/hpp_proto/dynamic_message/repeated_enum_fields.hpp: repeated_enum_field_mref", "include/hpp_proto/dynamic_message/repeated_string_fields.hpp: repeated_string_field_mref"]}
{"id": "C123", "title": "Generated extensions", "statement": "The struct generated for an extension has the number and the kind of value that its definition asks for. An extension that is set is in the message: getting it, also after the message has been written and read back, gives the value, and the rest of the message is as it was.", "quantifier": "every set of files that protoc accepts, every extension in it, every value, every message", "why_tests_cant": "Extensions combine types, labels, defaults and features; values and messages are unbounded.", "anchors": ["src/protoc-plugin/hpp_generator.cpp: format_extension, meta_options, emit_closed_enum_validation", "include/hpp_proto/binpb.hpp: extension_base"]}
{"id": "C124", "title": "Nested dynamic messages are independent trees", "statement": "Whatever calls a program makes on dynamic messages, their message fields and the elements of their repeated message fields (making, setting, emplacing, clearing, reserving, resizing, appending, resetting and copying, without aliases), the messages read as trees that were changed by the same calls: all calls end, none reads or writes outside of its memory, and what one message holds is never disturbed by memory that is shared, moved or used again.", "quantifier": "every set of message types, recursive ones included; every history of calls, in which sources and destinations of copies are apart; every path", "why_tests_cant": "Histories, depths and the moves of memory are unbounded, and a wrong address shows only in particular orders of calls.", "anchors": ["include/hpp_proto/dynamic_message/message_fields.hpp: message_value_mref, message_field_mref", "include/hpp_proto/dynamic_message/repeated_message_fields.hpp: repeated_message_field_mref", "include/hpp_proto/dynamic_message/storage.hpp: value_storage"]}
{"id": "C125", "title": "Copying a dynamic message copies it", "statement": "After a message was copied to another one of its type, the destination has the contents that the source had, and nothing else has changed, whichever two messages they are.", "quantifier": "every history, every two messages of the same type", "why_tests_cant": "Copying reads and writes the same memory in steps; all pairs of places in all trees count.", "anchors": ["include/hpp_proto/dynamic_message/message_fields.hpp: message_value_mref::clone_from, message_field_mref::clone_from", "include/hpp_proto/dynamic_message/repeated_message_fields.hpp: repeated_message_field_mref::clone_from"]}
{"id": "C126", "title": "Changing a dynamic message changes no other", "statement": "A call on a message changes no message that is neither this one, nor a part of it, nor one it is a part of.", "quantifier": "every history, every call, every other message", "why_tests_cant": "Sharing of memory depends on the whole history.", "anchors": ["include/hpp_proto/dynamic_message/message_fields.hpp: message_value_mref, message_field_mref", "include/hpp_proto/dynamic_message/repeated_message_fields.hpp: repeated_message_field_mref"]}
{"id": "C127", "title": "Non-owning messages are values", "statement": "A non-owning message, of which strings, repeated fields and recursive fields are views and pointers, behaves as a value: reading into a message, or assigning one message or a part of it to another, changes no other message, whatever they share; a read that ends with an error leaves all other messages as they were; and nothing a message shows depends on the buffer it was read from.", "quantifier": "every set of message types, recursive ones included; every history of making, reading, assigning and filling inputs again; every sequence of fields in the input, with an error anywhere; every path", "why_tests_cant": "Messages share memory after each assignment, and a write into shared memory shows only in another message, much later.", "anchors": ["include/hpp_proto/optional_indirect.hpp: optional_indirect_view", "include/hpp_proto/memory_resource_utils.hpp: arena_vector", "include/hpp_proto/binpb/deserialize.hpp: deserialize_field, deserialize", "include/hpp_proto/binpb.hpp: read_binpb"]}
{"id": "C128", "title": "Reading into a non-owning message is defined and leaves no dangling views", "statement": "For all bytes, reading into a non-owning message, extendable or not, is defined, and afterwards everything in it can be read and does not depend on memory that the program may use again.", "quantifier": "every history of reads, every sequence of fields in the input", "why_tests_cant": "Whether a view dangles does not show in its value, and undefined behaviour needs particular orders of fields.", "anchors": ["include/hpp_proto/binpb/deserialize.hpp: deserialize_unknown_fields, deserialize_unknown_enum, deserialize", "include/hpp_proto/memory_resource_utils.hpp: arena_vector", "include/hpp_proto/field_types.hpp: non_owning_traits"]}
{"id": "C129", "title": "Client streams send what was written", "statement": "In an RPC through a client reactor in which the user and gRPC keep the rules of gRPC, nothing undefined happens, gRPC is called exactly as the user asks, and what gRPC sends are the encodings of the messages that the user wrote, in order, none twice and, unless a write is reported to have failed, none missing. write() returns OK exactly if the message can be encoded; one that cannot is not sent and does not disturb the messages in flight.", "quantifier": "every kind of method, every schedule of user calls and gRPC callbacks, every sequence of messages", "why_tests_cant": "gRPC keeps a pointer to the buffer of the reactor and takes the message later; whether the buffer is overwritten in between depends on the schedule.", "anchors": ["include/hpp_proto/grpc/client.hpp: ClientCallbackReactor::prepare, start_call, start_read, write, write_last, write_done, add_hold, remove_hold", "include/hpp_proto/grpc/serialization.hpp: write_binpb", "docs/grpc-adapter.md"]}
{"id": "C130", "title": "Client streams give what was received", "statement": "get_response() gives the message that was received last, whatever was done since and whatever the target held before, or reports that its bytes are not a message; it reports OK only if a message was received.", "quantifier": "every kind of method, every schedule, every way to cut the bytes of a response into slices", "why_tests_cant": "The buffer of the reactor is reused by every read; which message is in it depends on the schedule.", "anchors": ["include/hpp_proto/grpc/client.hpp: ClientCallbackReactor::get_response, start_read", "include/hpp_proto/grpc/serialization.hpp: read_binpb, slices_view"]}
{"id": "C131", "title": "A blocking call reports what happened", "statement": "A blocking unary call sends exactly the encoding of its request, or nothing if the request cannot be encoded; it returns OK exactly if gRPC ended the call with OK and a response that can be read, and the response is then what its bytes mean.", "quantifier": "every request, every response cut into slices in any way, every status", "why_tests_cant": "Failures of encoding, of the call and of decoding meet in one status, for all inputs.", "anchors": ["include/hpp_proto/grpc/client.hpp: Stub::call", "include/hpp_proto/grpc/serialization.hpp: SerializationTraits"]}
{"id": "C132", "title": "indirect is a value", "statement": "Objects of type indirect behave like the values in them: a program that constructs, copies, moves, assigns, swaps, reads and destroys them reads the same as the same program on plain values, whatever allocators are used and whatever throws, and nothing undefined happens, also with objects that were moved from.", "quantifier": "every program over any number of objects, every allocator (equality and propagation), every pattern of exceptions", "why_tests_cant": "Each function branches on the propagation traits, on equality of allocators and on null pointers; tests use one allocator and few orders.", "anchors": ["include/hpp_proto/indirect.hpp: indirect"]}
{"id": "C133", "title": "indirect owns what is allocated, once", "statement": "Whatever a program does with indirect objects and whatever throws, everything allocated belongs to exactly one object, is freed once and with an allocator equal to the one that allocated it, and nothing is allocated when no object is left. After an operation that returns, get_allocator() gives the allocator the object was given, or that of the source exactly where the propagation traits say so.", "quantifier": "every program, every allocator, every pattern of exceptions", "why_tests_cant": "Leaks and double frees depend on the order of operations and on where an exception is thrown.", "anchors": ["include/hpp_proto/indirect.hpp: indirect, allocate_construct, destroy, swap"]}
{"id": "C134", "title": "Exceptions leave indirect usable", "statement": "An operation on indirect objects that throws changes no object but its targets, a constructor changes none, and the targets still have values; functions that are declared noexcept do not throw.", "quantifier": "every state that a program reaches, every operation, every point at which an allocation or an operation on a value throws", "why_tests_cant": "Tests do not make every allocation and every assignment throw.", "anchors": ["include/hpp_proto/indirect.hpp: operator=, swap, allocate_construct"]}
{"id": "C135", "title": "Setting a field of a dynamic message by name or number", "statement": "set_field_by_name and set_field_by_number succeed exactly if the message type has the field and the C++ type of the argument is the one of the field; the field then reads as the argument, its oneof siblings are absent and all other fields are unchanged. Otherwise the error tells which it was: no such field, another type, an unknown enum name, or a message of another type.", "quantifier": "every message type the factory accepts, every message, every name or number, every argument", "why_tests_cant": "The functions dispatch at run time over 34 kinds of fields and any type of argument; tests try few pairs.", "anchors": ["include/hpp_proto/dynamic_message/message_fields.hpp: set_field_by_name, set_field_by_number", "include/hpp_proto/dynamic_message/field_refs.hpp: field_mref::set", "include/hpp_proto/dynamic_message/field_visit.hpp: visit_runtime_field"]}
{"id": "C136", "title": "Failed calls and chains of calls", "statement": "A call that sets a field and fails leaves the message as it was. A chain of calls on an expected_message_mref does them in order up to the first that fails and reports that failure. A call that modifies a field hands the function the field that is named if it is of the kind the function takes, and fails otherwise.", "quantifier": "every message, every call, every chain of any length", "why_tests_cant": "What is left behind depends on how far the call got.", "anchors": ["include/hpp_proto/dynamic_message/expected_message_mref.hpp: expected_message_mref", "include/hpp_proto/dynamic_message/repeated_enum_fields.hpp: set", "include/hpp_proto/dynamic_message/repeated_message_fields.hpp: set"]}
{"id": "C137", "title": "Reading a field of a dynamic message by name or number", "statement": "field_value_by_name<T> and field_value_by_number<T> succeed exactly for a field of a kind that T belongs to, and give what the field holds, the first name of an enum number, or the error that there is none; what was set is got back by the type that goes with the argument.", "quantifier": "every message type, every message, every name or number, every type asked for", "why_tests_cant": "Run-time dispatch over kinds and types.", "anchors": ["include/hpp_proto/dynamic_message/message_fields.hpp: field_value_by_name, field_value_by_number, typed_ref_by_name", "include/hpp_proto/dynamic_message/field_refs.hpp: field_cref::get, to"]}
{"id": "C138", "title": "Adopted memory", "statement": "A field that adopted memory of the caller reads what that memory holds for as long as the caller keeps it.", "quantifier": "every buffer, every kind of argument", "why_tests_cant": "A dangling pointer often still reads the old contents, so a test passes.", "anchors": ["include/hpp_proto/dynamic_message/field_refs.hpp: field_mref::adopt", "include/hpp_proto/dynamic_message/string_fields.hpp: adopt"]}
{"id": "C139", "title": "Iterators over repeated fields are random access iterators", "statement": "An iterator over a repeated enum, string, bytes or message field of a dynamic message, or over the fields of a message, that was moved within the range by any increments, decrements, additions and subtractions is at the position these add up to: what it refers to, its subscripts, and differences and comparisons of two such iterators are those of the positions; a loop from begin to end visits every element once, in order.", "quantifier": "every field of every size, every sequence of moves, every pair of iterators", "why_tests_cant": "Positions are unsigned and moves signed; the laws range over all of both.", "anchors": ["include/hpp_proto/dynamic_message/repeated_field_iterator.hpp: repeated_field_iterator", "include/hpp_proto/dynamic_message/message_fields.hpp: fields_view"]}
{"id": "C140", "title": "Writing through iterators of repeated fields", "statement": "Assigning through an iterator of a mutable repeated field changes the element, so std::copy into a field writes its elements, and erasing with std::remove_if and resize leaves the elements for which the predicate is false, in order.", "quantifier": "every kind of repeated field, every list, every predicate", "why_tests_cant": "It must hold for every list and predicate; a test whose elements to remove come last passes.", "anchors": ["include/hpp_proto/dynamic_message/string_fields.hpp: string_value_mref", "include/hpp_proto/dynamic_message/enum_fields.hpp: enum_value_mref", "include/hpp_proto/dynamic_message/repeated_scalar_fields.hpp: begin, end"]}
{"id": "C141", "title": "How long iterators over dynamic messages are valid", "statement": "An iterator over a repeated field or the fields of a message stays at its position for as long as the message lives and the position exists, whatever becomes of the reference object it was obtained from, and iterators from two references to the same field can be compared.", "quantifier": "every history of reference objects and changes of lists, every iterator", "why_tests_cant": "A dangling pointer to a reference object on the stack often still reads the old object.", "anchors": ["include/hpp_proto/dynamic_message/repeated_field_iterator.hpp: repeated_field_iterator", "include/hpp_proto/dynamic_message/repeated_message_fields.hpp: begin, end", "include/hpp_proto/dynamic_message/message_fields.hpp: fields"]}
{"id": "C142", "title": "What a server sends", "statement": "For every schedule in which a handler and gRPC keep the rules, gRPC is called exactly as asked, and what is sent are the encodings of the replies, in order and each once; a reply that cannot be encoded is not sent and finishes the RPC with INTERNAL; a method without server streaming sends its reply only with OK.", "quantifier": "every method, every message type, every schedule of any length", "why_tests_cant": "gRPC reads the buffer later than it was written; what is sent depends on what happens meanwhile.", "anchors": ["include/hpp_proto/grpc/server.hpp: ServerRPC::write, finish", "docs/grpc-adapter.md: Streaming Best Practices"]}
{"id": "C143", "title": "What a request token gives", "statement": "RequestToken::get gives the message that the bytes of the request mean with which the token came, or reports that they mean none, whenever it is called before the RPC is over.", "quantifier": "every method, every message type, every schedule, every token", "why_tests_cant": "A token is a pointer to a buffer that is filled again; a test that reads it in the callback passes.", "anchors": ["include/hpp_proto/grpc/server.hpp: RequestToken, BasicServerReactor::on_read_done"]}
{"id": "C144", "title": "read_json reads the same text from every kind of string", "statement": "Whatever kind of string a JSON text is given in (character array, pointer, std::string, string view), read_json gives the result for that text; a null pointer or an array without a zero at its end is an error, and nothing beyond the string is read.", "quantifier": "every text, every kind of string, every contents of arrays and of memory behind pointers, every message type", "why_tests_cant": "The overloads differ in which characters they read; tests use literals, where they agree.", "anchors": ["include/hpp_proto/json.hpp: read_json", "docs/frontend_apis.md: JSON APIs"]}
{"id": "C145", "title": "A write uses its own option", "statement": "While write_json runs, every field without presence that has its default value is written or not by the option of this very call, whatever calls go on in other threads or are nested in it, returning or left by exceptions; after all calls of a thread the setting is as at the start.", "quantifier": "every interleaving of calls on any number of threads, nested to any depth, ended by return or exception", "why_tests_cant": "The option is passed through a thread-local flag; a test sees one schedule.", "anchors": ["include/hpp_proto/json.hpp: always_print_guard, write_json", "include/hpp_proto/json/field_wrappers.hpp: always_print_fields_with_no_presence, optional_ref"]}
{"id": "C146", "title": "All fields without presence are printed on request", "statement": "With always_print_fields_with_no_presence, write_json of a dynamic message writes JSON whose members are the fields that are set and those without presence, in order; one that is not set has its default (0, empty string, false, empty list or object), at every level of nesting. Fields with presence that are not set are left out.", "quantifier": "every set of message types, every message, nested to any depth within the limit, every other option", "why_tests_cant": "The tests look for two members in the text of one empty message.", "anchors": ["include/hpp_proto/dynamic_message/json.hpp: generic_message_json_serializer, to<JSON, field_cref>, to<JSON, scalar_field_cref>", "docs/frontend_apis.md: JSON Write Options"]}
{"id": "C147", "title": "Comparisons of flat maps", "statement": "Two flat_maps compare equal exactly if they have the same keys with equal values, whatever calls made them. With total orders of keys and values, of two maps exactly one is less or they are equal, and being less is transitive; >, <=, >= and != agree with this.", "quantifier": "every pair of histories of legal calls, every key and value type with the comparisons named", "why_tests_cant": "The tests compare a few maps, most of them made by the same calls.", "anchors": ["include/hpp_proto/flat_map.hpp: operator==, operator!=, operator<, operator>, operator<=, operator>="]}
{"id": "C148", "title": "Programs with several flat maps", "statement": "After any program that copies, moves, swaps, extracts and replaces flat_maps between other calls, every map holds what the finite map with the same history holds: copies are independent, maps moved from or extracted are empty, swap exchanges two maps and changes no other, and containers from extract may be given to replace, which gives the map back.", "quantifier": "every number of maps and containers, every program within the preconditions", "why_tests_cant": "The tests do each of these once, on small maps.", "anchors": ["include/hpp_proto/flat_map.hpp: flat_map::swap, flat_map::extract, flat_map::replace, swap"]}
{"id": "C149", "title": "Views that read as values", "statement": "Reading an indirect_view gives the current value of the object it refers to, or the default value if it refers to none; an optional_indirect_view of nothing has no value, and value() throws. Copying, moving, swapping and resetting views changes what views refer to and no object. An assignment through one view is seen through all views of that object and no other. Comparisons, and_then, transform and or_else depend on what is shown.", "quantifier": "every program over any number of objects and views, every value type", "why_tests_cant": "The tests use one object and one or two views.", "anchors": ["include/hpp_proto/indirect_view.hpp: indirect_view", "include/hpp_proto/optional_indirect.hpp: optional_indirect_view"]}
{"id": "C150", "title": "Reading JSON into a non-owning message leaves other messages alone", "statement": "read_json into a non-owning message changes no value that another message shows, even if the two were copies of each other and shared nested messages, and whether or not reading succeeds. Afterwards the message consists of itself and new memory of the resource only, and nothing that it held before shows.", "quantifier": "every memory of messages that share parts in any way, every text", "why_tests_cant": "The tests read into new messages that share nothing.", "anchors": ["include/hpp_proto/json.hpp: from<JSON, optional_indirect_view_ref>, from<JSON, indirect_view>, read_json_buffer", "include/hpp_proto/json/field_wrappers.hpp: optional_indirect_view_ref"]}
{"id": "C151", "title": "Emitted floating literals have the intended value", "statement": "For the default value of a float or double field the generator accepts exactly nan, inf, -inf and decimal numbers in the range of the type. The C++ expression it emits is a floating literal of the type of the field, with the sign and the decimal number of the text, and nothing else.", "quantifier": "every text of a default value, both types", "why_tests_cant": "The texts are unbounded; the tests try a dozen.", "anchors": ["src/protoc-plugin/cpp_lexical_emitter.cpp: numeric_literal::floating, valid_float_spelling", "src/protoc-plugin/hpp_generator.cpp: set_default_value"]}
{"id": "C152", "title": "A call reaches the handler of the method with the same name", "statement": "A call through a generated stub reaches exactly the handler that the server has for the method with the same package, service name and method name, whatever the order of the methods and whichever version of the service client and server were generated from; it has the kind of streaming of the method. If the server has no handler for it, it reaches none. A service offered twice keeps the server from starting.", "quantifier": "every set of services, every choice of handlers, every version of the service at the client, every method", "why_tests_cant": "Services, methods, names and versions are unbounded; tests have one service.", "anchors": ["include/hpp_proto/grpc/client.hpp: Stub, grpc_method", "include/hpp_proto/grpc/server.hpp: CallbackService, add_method, ServerReactor::grpc_method_handler", "src/protoc-plugin/hpp_generator.cpp: service_generator"]}
{"id": "C153", "title": "Functional members of optional recursive members", "statement": "and_then and transform of an optional_indirect call the function exactly once, with the object, if there is one, and otherwise do nothing and give an empty result. or_else calls the function only if there is no object; otherwise it gives an equal optional with an object of its own, or, for an rvalue, the object itself without allocating. Comparison with a value or nullopt depends on the value only.", "quantifier": "every program, allocator and choice of failing allocations, every function passed", "why_tests_cant": "Programs, values and functions are unbounded.", "anchors": ["include/hpp_proto/optional_indirect.hpp: optional_indirect::and_then, transform, or_else, operator=="]}
{"id": "C154", "title": "The byte order of the platform does not matter", "statement": "Numbers with a fixed number of bytes are written least significant byte first on little-endian and on big-endian platforms, alone and in packed fields; what is read from given bytes is the same number on both, by every way of reading packed fields; base64 texts are the same.", "quantifier": "both byte orders, every width, every number and byte string", "why_tests_cant": "Numbers and byte strings are unbounded, and tests run on one platform.", "anchors": ["include/hpp_proto/binpb/serialize.hpp: contiguous_out::serialize, chunked_out::serialize", "include/hpp_proto/binpb/deserialize.hpp: basic_in::deserialize, deserialize_packed, do_deserialize_packed_resize", "include/hpp_proto/memory_resource_utils.hpp: bit_cast_view_t, arena_vector::append_raw_data", "include/hpp_proto/json/base64.hpp: encode"]}
{"id": "C155", "title": "The UTF-8 check only refuses", "statement": "A string is refused exactly if its field asks for the check, the check is compiled in, the call is evaluated at run time and the validator rejects it. Compared with a build or an evaluation without the check, reading and writing with it give the same outcome (same message, same bytes, same error) or bad_message (in reading dynamic messages illegal_byte_sequence); so nothing read or written with the check is read or written differently without it, without it no string makes a write fail, and what only the check refuses to read contains a contiguous part that the validator rejects.", "quantifier": "every build, validator, schema, recursion limit, input, message and buffer", "why_tests_cant": "The check sits deep in the overloads of reading and writing, messages and inputs are unbounded, and tests are compiled with one setting.", "anchors": ["include/hpp_proto/binpb/utf8.hpp: utf8_validation_failed, HPP_PROTO_NO_UTF8_VALIDATION", "include/hpp_proto/dynamic_message/pb_serializer_ext.hpp: utf8_validation_failed", "include/hpp_proto/binpb.hpp: read_binpb, write_binpb"]}
{"id": "C156", "title": "Default values of enum fields in generated headers", "statement": "In a generated header an enum field whose schema names a value of the enum as its default starts with the number of that value, and an optional one without default with the number of the first value, whatever the names become in C++ (keywords, names that would collide).", "quantifier": "every enum that the generator accepts, every value, field and default", "why_tests_cant": "Names and enums are unbounded, and the names are mapped before they are compared by the compiler.", "anchors": ["src/protoc-plugin/hpp_generator.cpp: set_enum_default_value, resolve_enum_field, validate_enum_values, process(enum_descriptor_t), process(field_descriptor_t)"]}
