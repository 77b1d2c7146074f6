{
 "claims": [
  {
   "property": "C01",
   "status": "proved",
   "theorems": [
    "HppProto.Props.C01_varint_round_trip",
    "HppProto.Props.C01_canonical_all"
   ],
   "note": ""
  },
  {
   "property": "C02",
   "status": "proved",
   "theorems": [
    "HppProto.Props.C02_varint_size"
   ],
   "note": ""
  },
  {
   "property": "C03",
   "status": "proved",
   "theorems": [
    "HppProto.Props.C03_parse64",
    "HppProto.Props.C03_parse32",
    "HppProto.Props.C03_uint32_overlong_refused",
    "HppProto.Props.C03_sint32_not_truncated"
   ],
   "note": "The last two record deviations from protobuf outside the claimed range."
  },
  {
   "property": "C04",
   "status": "proved",
   "theorems": [
    "HppProto.Props.C04_zigzag"
   ],
   "note": ""
  },
  {
   "property": "C05",
   "status": "proved",
   "theorems": [
    "HppProto.Props.C05_bool"
   ],
   "note": ""
  },
  {
   "property": "C06",
   "status": "partial",
   "theorems": [
    "HppProto.Props.C06_tag_round_trip_partial",
    "HppProto.Props.C06_five_byte_tags_fail"
   ],
   "note": "True for field numbers below 2^25; refuted for all larger ones: the reader ignores the payload of the fifth tag byte."
  },
  {
   "property": "C07",
   "status": "proved",
   "theorems": [
    "HppProto.Props.C07_size_exact"
   ],
   "note": ""
  },
  {
   "property": "C08",
   "status": "proved",
   "theorems": [
    "HppProto.Props.C08_size_cache",
    "HppProto.Props.C08_no_ub"
   ],
   "note": ""
  },
  {
   "property": "C09",
   "status": "proved",
   "theorems": [
    "HppProto.Props.C09_written_bytes"
   ],
   "note": "Also the writing half of C51."
  },
  {
   "property": "C11",
   "status": "partial",
   "theorems": [
    "HppProto.Props.C11_oversized_refused_partial",
    "HppProto.Props.C11_size_wraps"
   ],
   "note": "True for encodings below 2^64 bytes; refuted at 2^64 (the uint64 size wraps), reachable with non-owning views that alias."
  },
  {
   "property": "C12",
   "status": "proved",
   "theorems": [
    "HppProto.Props.C12_fixed_buffer"
   ],
   "note": ""
  },
  {
   "property": "C13",
   "status": "proved",
   "theorems": [
    "HppProto.Props.C13_write_recursion_limit"
   ],
   "note": ""
  },
  {
   "property": "C15",
   "status": "partial",
   "theorems": [
    "HppProto.Props.C15_append_partial",
    "HppProto.Props.C15_append_overwrites"
   ],
   "note": "Refuted for non-empty buffers; holds for empty ones."
  },
  {
   "property": "C18",
   "status": "partial",
   "theorems": [
    "HppProto.Props.C18_terminates_partial",
    "HppProto.Props.C18_throws"
   ],
   "note": "Every read ends in success (with all input consumed) or an error code, except that a oneof with a closed-enum member throws std::bad_variant_access."
  },
  {
   "property": "C19",
   "status": "partial",
   "theorems": [
    "HppProto.Props.C19_concat_partial",
    "HppProto.Props.C19_overlong_tag"
   ],
   "note": "Needs: no closed enum in a oneof (C18), and, for types that keep unknown fields, a minimal first tag in the second input when the first ends in an unknown field; refuted without."
  },
  {
   "property": "C20",
   "status": "proved",
   "theorems": [
    "HppProto.Props.C20_unknown_fields",
    "HppProto.Props.C20_unknown_exact",
    "HppProto.Props.C20_extensions",
    "HppProto.Props.C20_reemitted",
    "HppProto.Props.C20_no_influence",
    "HppProto.Props.C20_overlong_corrupted"
   ],
   "note": "The last theorem shows that unknown records with overlong tags, outside the claim, are corrupted."
  },
  {
   "property": "C21",
   "status": "proved",
   "theorems": [
    "HppProto.Props.C21_packed_unpacked",
    "HppProto.Props.C21_same_pieces"
   ],
   "note": ""
  },
  {
   "property": "C22",
   "status": "proved",
   "theorems": [
    "HppProto.Props.C22_values",
    "HppProto.Props.C22_never_outside",
    "HppProto.Props.C20_unknown_fields"
   ],
   "note": "That the number is kept as a record is the keptAs clause of C20_unknown_fields."
  },
  {
   "property": "C23",
   "status": "proved",
   "theorems": [
    "HppProto.Props.C23_oneof_last",
    "HppProto.Props.C23_oneof_absent"
   ],
   "note": "For oneofs without closed-enum members; those throw (C18_throws)."
  },
  {
   "property": "C24",
   "status": "proved",
   "theorems": [
    "HppProto.Props.C24_map_last",
    "HppProto.Props.C24_missing_default",
    "HppProto.Props.C24_value_first_refused"
   ],
   "note": "The last theorem records a deviation from protobuf: an entry with value before key is refused."
  },
  {
   "property": "C25",
   "status": "proved",
   "theorems": [
    "HppProto.Props.C25_records_unique",
    "HppProto.Props.C25_group_value",
    "HppProto.Props.C25_unterminated"
   ],
   "note": ""
  },
  {
   "property": "C26",
   "status": "proved",
   "theorems": [
    "HppProto.Props.C26_limit_exact",
    "HppProto.Props.C26_limit_monotone"
   ],
   "note": "The depth counter is modelled as the remaining budget passed down; that scopes restore it is C28."
  },
  {
   "property": "C37",
   "status": "proved",
   "theorems": [
    "HppProto.Props.C37_read_replaces"
   ],
   "note": ""
  },
  {
   "property": "C51",
   "status": "proved",
   "theorems": [
    "HppProto.Props.C51_read_utf8",
    "HppProto.Props.C09_written_bytes"
   ],
   "note": ""
  },
  {
   "property": "C10",
   "status": "partial",
   "theorems": [
    "HppProto.Props.C10_round_trip_partial",
    "HppProto.Props.C10_large_number",
    "HppProto.Props.C10_negative_zero"
   ],
   "note": "Field numbers below 2^25 and no closed enum in a oneof; false from 2^25 on (witness C10_large_number, see C06). -0.0 without presence is read back as 0.0."
  },
  {
   "property": "C35",
   "status": "partial",
   "theorems": [
    "HppProto.Props.C35_merge_laws_partial",
    "HppProto.Props.C35_message_oneof",
    "HppProto.Props.C35_required"
   ],
   "note": "Associative without messages in oneofs, right neutral without required members; counterexamples for both are proved. Objects without -0.0 in fields without presence."
  },
  {
   "property": "C36",
   "status": "partial",
   "theorems": [
    "HppProto.Props.C36_merge_is_parse_partial",
    "HppProto.Props.C36_parse_onto",
    "HppProto.Props.C36_copy_is_move",
    "HppProto.Props.C36_large_number"
   ],
   "note": "Field numbers below 2^25 and no closed enum in a oneof; false from 2^25 on (C36_large_number)."
  },
  {
   "property": "C27",
   "status": "proved",
   "theorems": [
    "HppProto.Props.C27_dispatch",
    "HppProto.Props.C27_reader_dispatch",
    "HppProto.Props.C27_storage_first"
   ],
   "note": "The last theorem shows why the storage member has to be declared last."
  },
  {
   "property": "C28",
   "status": "proved",
   "theorems": [
    "HppProto.Props.C28_scopes",
    "HppProto.Props.C28_budget"
   ],
   "note": ""
  },
  {
   "property": "C29",
   "status": "proved",
   "theorems": [
    "HppProto.Props.C29_base64",
    "HppProto.Props.C29_injective"
   ],
   "note": ""
  },
  {
   "property": "C30",
   "status": "partial",
   "theorems": [
    "HppProto.Props.C30_accepted_partial",
    "HppProto.Props.C30_refused_partial",
    "HppProto.Props.C30_malformed_accepted"
   ],
   "note": "The exact accepted language is proved; it is larger than claimed: when the last character is '=', the three characters before it are not checked."
  },
  {
   "property": "C38",
   "status": "partial",
   "theorems": [
    "HppProto.Props.C38_optional_bool_partial",
    "HppProto.Props.C38_proxy_copy",
    "HppProto.Props.C38_proxy_after_reset"
   ],
   "note": "All operations except assigning one proxy to another (rebinds instead of assigning) and reading a proxy after a reset (reads true); both refuted."
  },
  {
   "property": "C31",
   "status": "proved",
   "theorems": [
    "HppProto.Props.C31_round_trip",
    "HppProto.Props.C31_text",
    "HppProto.Props.C31_decode_exact"
   ],
   "note": ""
  },
  {
   "property": "C32",
   "status": "proved",
   "theorems": [
    "HppProto.Props.C32_round_trip",
    "HppProto.Props.calendar"
   ],
   "note": ""
  },
  {
   "property": "C33",
   "status": "partial",
   "theorems": [
    "HppProto.Props.C33_accepted_partial",
    "HppProto.Props.C33_rfc3339_partial",
    "HppProto.Props.C33_minus_zero_accepted"
   ],
   "note": "The exact accepted language is proved; it is larger than RFC 3339: '-0' is accepted for hour, minute and second, and a minus sign and zeros as fraction."
  },
  {
   "property": "C34",
   "status": "proved",
   "theorems": [
    "HppProto.Props.C34_text",
    "HppProto.Props.C34_round_trip",
    "HppProto.Props.C34_snake_case"
   ],
   "note": ""
  },
  {
   "property": "C39",
   "status": "partial",
   "theorems": [
    "HppProto.Props.C39_sequence_partial",
    "HppProto.Props.C39_reserve_overrun"
   ],
   "note": "All histories except reserve(n) with n below the size before the vector owns storage; that call leaves a view longer than its storage (proved)."
  },
  {
   "property": "C40",
   "status": "proved",
   "theorems": [
    "HppProto.Props.C40_history",
    "HppProto.Props.C40_results",
    "HppProto.Props.C40_bounds"
   ],
   "note": ""
  },
  {
   "property": "C41",
   "status": "proved",
   "theorems": [
    "HppProto.Props.C41_range"
   ],
   "note": "Which of several values of the same key survives is not fixed by the claim (the quicksort is not stable)."
  },
  {
   "property": "C52",
   "status": "partial",
   "theorems": [
    "HppProto.Props.C52_reverse_partial",
    "HppProto.Props.C52_const_reverse_runs_off"
   ],
   "note": "rbegin/rend are right; crbegin/crend are exchanged, so iterating with them leaves the map (proved for every non-empty map)."
  },
  {
   "property": "C14",
   "status": "proved",
   "theorems": [
    "HppProto.Props.C14_chunked",
    "HppProto.Props.C14_never_overruns",
    "HppProto.Props.C14_same_errors",
    "HppProto.Props.C14_contiguous",
    "HppProto.Props.C14_adaptive"
   ],
   "note": "Adaptive mode for sinks whose first chunk is as large as chunk_size() promises."
  },
  {
   "property": "C50",
   "status": "proved",
   "theorems": [
    "HppProto.Props.C50_sink",
    "HppProto.Props.C50_grpc"
   ],
   "note": ""
  },
  {
   "property": "C53",
   "status": "partial",
   "theorems": [
    "HppProto.Props.C53_default_partial",
    "HppProto.Props.C53_default_overruns"
   ],
   "note": "Without an option the mode is contiguous, not adaptive as documented: right when the first chunk has room, otherwise the chunk is overrun (proved for every message and sink)."
  },
  {
   "property": "C54",
   "status": "partial",
   "theorems": [
    "HppProto.Props.C54_single_slice"
   ],
   "note": "Refuted: the adapter inspects a reference type, always takes the contiguous chunk size and emits one slice."
  },
  {
   "property": "C44",
   "status": "proved",
   "theorems": [
    "HppProto.Props.C44_string_literals",
    "HppProto.Props.C44_printable"
   ],
   "note": ""
  },
  {
   "property": "C45",
   "status": "proved",
   "theorems": [
    "HppProto.Props.C45_comments",
    "HppProto.Props.C45_printable"
   ],
   "note": ""
  },
  {
   "property": "C46",
   "status": "proved",
   "theorems": [
    "HppProto.Props.C46_identifiers",
    "HppProto.Props.C46_distinct"
   ],
   "note": ""
  },
  {
   "property": "C47",
   "status": "proved",
   "theorems": [
    "HppProto.Props.C47_signed",
    "HppProto.Props.C47_unsigned"
   ],
   "note": ""
  },
  {
   "property": "C55",
   "status": "proved",
   "theorems": [
    "HppProto.Props.C55_qualified",
    "HppProto.Props.C55_distinct"
   ],
   "note": ""
  },
  {
   "property": "C56",
   "status": "proved",
   "theorems": [
    "HppProto.Props.C56_include",
    "HppProto.Props.C56_header_name"
   ],
   "note": ""
  },
  {
   "property": "C57",
   "status": "proved",
   "theorems": [
    "HppProto.Props.C57_namespace",
    "HppProto.Props.C57_component",
    "HppProto.Props.C57_collisions"
   ],
   "note": ""
  },
  {
   "property": "C58",
   "status": "partial",
   "theorems": [
    "HppProto.Props.C58_string_default",
    "HppProto.Props.C58_bytes_default_partial",
    "HppProto.Props.C58_bytes_default_wrong",
    "HppProto.Props.C58_bytes_default_text"
   ],
   "note": "String fields proved. Bytes fields: refuted for every value that the descriptor stores C-escaped, because the escapes are not undone."
  },
  {
   "property": "C42",
   "status": "proved",
   "theorems": [
    "HppProto.Props.C42_unpack",
    "HppProto.Props.C42_pack_unpack",
    "HppProto.Props.C42_pack_ok"
   ],
   "note": ""
  },
  {
   "property": "C43",
   "status": "partial",
   "theorems": [
    "HppProto.Props.C43_set_get_partial",
    "HppProto.Props.C43_survives_partial",
    "HppProto.Props.C43_absent",
    "HppProto.Props.C43_empty_ignored",
    "HppProto.Props.C43_list_accumulates",
    "HppProto.Props.C43_empty_wrong",
    "HppProto.Props.C43_list_wrong"
   ],
   "note": "Proved for values with a non-empty encoding (and first settings in a list of pairs). Refuted otherwise: set_to ignores a value with an empty encoding and keeps the old one; in the non-owning storage a second set_to is merged with the first."
  },
  {
   "property": "C16",
   "status": "proved",
   "theorems": [
    "HppProto.Props.C16_segments",
    "HppProto.Props.C16_status",
    "HppProto.Props.C16_cuts",
    "HppProto.Props.C16_contiguous",
    "HppProto.Props.C16_append"
   ],
   "note": "The machine of overlapping regions (constructor, region switches, split, patch buffer) is modelled and simulates the reader of a list; error codes of rejected inputs may differ, the class does not."
  },
  {
   "property": "C17",
   "status": "proved",
   "theorems": [
    "HppProto.Props.C17_segments",
    "HppProto.Props.C17_contiguous",
    "HppProto.Props.readable_cell"
   ],
   "note": "Reading outside the segments and the 32 patch bytes per segment, or reading an unwritten patch byte, is undefined behaviour in the model and is shown not to happen. Without padded_input."
  },
  {
   "property": "C59",
   "status": "partial",
   "theorems": [
    "HppProto.Props.C59_padded_partial",
    "HppProto.Props.C59_view_inside",
    "HppProto.Props.C59_view_overrun"
   ],
   "note": "Proved for messages that own their strings, with any sixteen readable bytes after the input. Refuted for string and bytes views: read_bytes does not check the length, so validating a string reads past the padding."
  },
  {
   "property": "C48",
   "status": "proved",
   "theorems": [
    "HppProto.Props.C48_cycle_check",
    "HppProto.Props.C48_pool_links",
    "HppProto.Props.C48_order"
   ],
   "note": "Registration of files, resolution of imports and the cycle check, for every file set; the statement is an equivalence."
  },
  {
   "property": "C49",
   "status": "proved",
   "theorems": [
    "HppProto.Props.C49_share",
    "HppProto.Props.C49_accepts",
    "HppProto.Props.C49_active",
    "HppProto.Props.C49_plain"
   ],
   "note": "Slot assignment of the dynamic message factory for every descriptor it accepts: sharing, use of all slots, exact acceptance condition, recovery of the active member from the selector. Slot counters do not wrap in the model; the code asserts this."
  },
  {
   "property": "C60",
   "status": "proved",
   "theorems": [
    "HppProto.Props.C60_set_number",
    "HppProto.Props.C60_set_string",
    "HppProto.Props.C60_emplace",
    "HppProto.Props.C60_update",
    "HppProto.Props.C60_set_numbers",
    "HppProto.Props.C60_set_strings",
    "HppProto.Props.C60_push_number",
    "HppProto.Props.C60_push_string",
    "HppProto.Props.C60_push_message"
   ],
   "note": "All setters of the modelled field references. Aliasing (adopt, alias_from) is not modelled."
  },
  {
   "property": "C61",
   "status": "partial",
   "theorems": [
    "HppProto.Props.C61_absent",
    "HppProto.Props.C61_clear_partial",
    "HppProto.Props.C61_disagreement",
    "HppProto.Props.C61_statement_false"
   ],
   "note": "The claim is false: a field without presence keeps its value, and clearing an absent oneof member clears the active one. Proved for fields with presence and repeated fields that are present or outside a oneof."
  },
  {
   "property": "C62",
   "status": "partial",
   "theorems": [
    "HppProto.Props.C62_clone_partial",
    "HppProto.Props.C62_clone_twice_partial",
    "HppProto.Props.C62_disagreement",
    "HppProto.Props.C62_statement_false"
   ],
   "note": "The claim is false: trailing fields are not copied when a oneof has several members, absent numbers become present, a oneof with a string and an enum is corrupted. Proved for types whose oneofs have at most one member: same values at every depth, same presence except for singular numbers."
  },
  {
   "property": "C63",
   "status": "partial",
   "theorems": [
    "HppProto.Props.C63_read_partial",
    "HppProto.Props.C63_disagreement",
    "HppProto.Props.C63_statement_false"
   ],
   "note": "The claim is false: reading an absent enum of a oneof through the mutable reference overwrites the active sibling. Proved when the enum is present or outside a oneof. Reads through const references are functions of the message in the model."
  },
  {
   "property": "C64",
   "status": "partial",
   "theorems": [
    "HppProto.Props.C64_defined",
    "HppProto.Props.C64_oneof",
    "HppProto.Props.C64_determinate_partial",
    "HppProto.Props.C64_indeterminate"
   ],
   "note": "All histories of the modelled operations except the read of C63. Elements that were never written exist after resize of repeated numbers (C64_indeterminate); excluded otherwise."
  },
  {
   "property": "C65",
   "status": "proved",
   "theorems": [
    "HppProto.Props.C65_corresponds",
    "HppProto.Props.C65_same_bytes",
    "HppProto.Props.C65_wire",
    "HppProto.Props.C65_required_disagreement"
   ],
   "note": "All three passes. A dynamic message with an unset required field is written without it while a generated one writes its default (C65_required_disagreement), hence the hypothesis that required fields and map keys and values are set. Messages below 2^64 bytes, field numbers below 2^29."
  },
  {
   "property": "C66",
   "status": "partial",
   "theorems": [
    "HppProto.Props.C66_dynamic_read",
    "HppProto.Props.C66_same_inputs",
    "HppProto.Props.C66_stale_value",
    "HppProto.Props.C66_negative_zero",
    "HppProto.Props.C66_unknown_dropped"
   ],
   "note": "Every input is read as by the generated reader over the same byte sequence (one contiguous region). Partial because the code deviates: a field without presence that gets its default after another value keeps the old value() (C66_stale_value), -0.0 of a field without presence is lost (C66_negative_zero), unknown fields and unknown numbers of closed enums are dropped (C66_unknown_dropped; compared with generated messages that keep none). Where the generated reader throws (closed enum in a oneof, C18) the dynamic one goes on. The encoding validator is a parameter that accepts the empty string."
  },
  {
   "property": "C67",
   "status": "partial",
   "theorems": [
    "HppProto.Props.C67_round_trip_partial",
    "HppProto.Props.C67_corresponds",
    "HppProto.Props.C67_incomplete_entry"
   ],
   "note": "Holds for all types with field numbers below 2^25 and no closed enum in a oneof, for messages whose values are of their types and whose map entries have key and value. A map entry left without a key is written and then rejected by the reader (C67_incomplete_entry). Set required fields come back, unset ones stay unset."
  },
  {
   "property": "C68",
   "status": "partial",
   "theorems": [
    "HppProto.Props.C68_callback_partial",
    "HppProto.Props.C68_bad_request"
   ],
   "note": "Holds when the request can be written and the response type has no closed enum in a oneof. When the request cannot be written, prepare() calls OnDone, which deletes the reactor, and async_call then starts the call on it (C68_bad_request)."
  },
  {
   "property": "C69",
   "status": "partial",
   "theorems": [
    "HppProto.Props.C69_rules_partial",
    "HppProto.Props.C69_both_ways_partial",
    "HppProto.Props.C69_finished_twice",
    "HppProto.Props.C69_bad_reply"
   ],
   "note": "Holds for all handlers and schedules of unary, client-streaming and server-streaming methods; for methods that stream both ways if the handler handles every end of the stream and its replies can be encoded. Otherwise the RPC is finished twice (C69_finished_twice, C69_bad_reply)."
  },
  {
   "property": "C70",
   "status": "proved",
   "theorems": [
    "HppProto.Props.C70_told",
    "HppProto.Props.C70_runs"
   ],
   "note": "All handlers, method types and schedules; replies below 2^64 bytes."
  },
  {
   "property": "C71",
   "status": "proved",
   "theorems": [
    "HppProto.Props.C71_accepts",
    "HppProto.Props.C71_rejects",
    "HppProto.Props.C71_order"
   ],
   "note": "For every set of files and every hash order. The contents of options other than features, packed and map_entry are not modelled."
  },
  {
   "property": "C72",
   "status": "proved",
   "theorems": [
    "HppProto.Props.C72_mirrors"
   ],
   "note": "The relation is Mirrors in Spec/PoolView.lean."
  },
  {
   "property": "C73",
   "status": "proved",
   "theorems": [
    "HppProto.Props.C73_finds",
    "HppProto.Props.C73_finds_field",
    "HppProto.Props.C73_resolves"
   ],
   "note": ""
  },
  {
   "property": "C74",
   "status": "partial",
   "theorems": [
    "HppProto.Props.C74_flags_partial",
    "HppProto.Props.C74_presence_partial",
    "HppProto.Props.C74_unpacked",
    "HppProto.Props.C74_delimited_map",
    "HppProto.Props.C74_extension"
   ],
   "note": "The code differs for packed = false with the feature PACKED, for maps under DELIMITED and for the presence of proto3 extensions; presence also needs a known feature value and not LEGACY_REQUIRED on a repeated field."
  },
  {
   "property": "C75",
   "status": "partial",
   "theorems": [
    "HppProto.Props.C75_custom",
    "HppProto.Props.C75_keys_partial",
    "HppProto.Props.C75_collision",
    "HppProto.Props.C75_shadowed"
   ],
   "note": "Holds for custom JSON names, and for all fields if the JSON names of the message differ and, with proto names as keys, no field is named like the JSON name of another. The pool accepts messages that break these conditions."
  },
  {
   "property": "C76",
   "status": "proved",
   "theorems": [
    "HppProto.Props.C76_writes"
   ],
   "note": "Specification: FormAt (Spec/JsonForm.lean), JsonText (Spec/JsonText.lean). The library glaze is a parameter; what is assumed of it is Glaze.Lawful (Spec/JsonText.lean), which refGlaze satisfies. google.protobuf.Any is not modelled."
  },
  {
   "property": "C77",
   "status": "proved",
   "theorems": [
    "HppProto.Props.C77_round_trip"
   ],
   "note": "The library glaze is a parameter; what is assumed of it is Glaze.Lawful (Spec/JsonText.lean), which refGlaze satisfies. google.protobuf.Any is not modelled."
  },
  {
   "property": "C78",
   "status": "proved",
   "theorems": [
    "HppProto.Props.C78_reads"
   ],
   "note": "Keys, numbers in strings, enum names and the texts of well-known types are spelled without escapes; see C82. The library glaze is a parameter; what is assumed of it is Glaze.Lawful (Spec/JsonText.lean), which refGlaze satisfies. google.protobuf.Any is not modelled."
  },
  {
   "property": "C79",
   "status": "partial",
   "theorems": [
    "HppProto.Props.C79_read_partial",
    "HppProto.Props.C79_null",
    "HppProto.Props.C79_disagreement"
   ],
   "note": "Holds where no type repeats Value or ListValue; null for such a field dereferences a null pointer. The library glaze is a parameter; what is assumed of it is Glaze.Lawful (Spec/JsonText.lean), which refGlaze satisfies. google.protobuf.Any is not modelled."
  },
  {
   "property": "C80",
   "status": "partial",
   "theorems": [
    "HppProto.Props.C80_trailing_partial",
    "HppProto.Props.C80_unknown_partial",
    "HppProto.Props.C80_unclosed",
    "HppProto.Props.C80_disagreement"
   ],
   "note": "Trailing text and unknown keys are rejected; an array in a message in an array may lack its closing bracket. Missing: which other non-JSON texts are rejected. The library glaze is a parameter; what is assumed of it is Glaze.Lawful (Spec/JsonText.lean), which refGlaze satisfies. google.protobuf.Any is not modelled."
  },
  {
   "property": "C81",
   "status": "partial",
   "theorems": [
    "HppProto.Props.C81_write_partial",
    "HppProto.Props.C76_writes",
    "HppProto.Props.C77_round_trip",
    "HppProto.Props.C81_wrapper",
    "HppProto.Props.C81_value",
    "HppProto.Props.C81_enum",
    "HppProto.Props.C81_null",
    "HppProto.Props.C81_entry",
    "HppProto.Props.C81_disagreement"
   ],
   "note": "Writing is defined if map entries with message values have their value; messages with a ProtoJSON form are written and read back. Unset wrappers and Values, unnamed negative enum numbers, NullValue fields and entries without value break the claim. The library glaze is a parameter; what is assumed of it is Glaze.Lawful (Spec/JsonText.lean), which refGlaze satisfies. google.protobuf.Any is not modelled."
  },
  {
   "property": "C82",
   "status": "partial",
   "theorems": [
    "HppProto.Props.C78_reads",
    "HppProto.Props.C82_escaped_key",
    "HppProto.Props.C82_unquoted",
    "HppProto.Props.C82_null_member",
    "HppProto.Props.C82_keeps",
    "HppProto.Props.C82_disagreement"
   ],
   "note": "None of the four holds; what does hold is C78_reads. The library glaze is a parameter; what is assumed of it is Glaze.Lawful (Spec/JsonText.lean), which refGlaze satisfies. google.protobuf.Any is not modelled."
  },
  {
   "property": "C83",
   "status": "partial",
   "theorems": [
    "HppProto.Props.C83_ends",
    "HppProto.Props.C83_defines_partial",
    "HppProto.Props.C83_no_header"
   ],
   "note": "Ends for every schema; all messages are defined once if no extension outside of messages has a type that is part of a cycle. With such an extension the generator follows a null pointer."
  },
  {
   "property": "C84",
   "status": "partial",
   "theorems": [
    "HppProto.Props.C84_declared_partial",
    "HppProto.Props.C84_undeclared_repeated",
    "HppProto.Props.C84_undeclared_nested",
    "HppProto.Props.C84_undeclared_enclosing"
   ],
   "note": "Proved for schemas whose cycles are between the messages themselves, not what is nested in them, and have at most one way through repeated fields or maps; the other schemas have counterexamples."
  },
  {
   "property": "C85",
   "status": "partial",
   "theorems": [
    "HppProto.Props.C85_finite_partial",
    "HppProto.Props.C85_infinite_optional",
    "HppProto.Props.C85_infinite_oneof",
    "HppProto.Props.C85_infinite_repeated",
    "HppProto.Props.C85_infinite_nested"
   ],
   "note": "Proved for schemas whose cycles go through fields that are in no oneof (which includes proto3 optional) and not through nested messages; the other schemas have counterexamples."
  },
  {
   "property": "C86",
   "status": "partial",
   "theorems": [
    "HppProto.Props.C86_values_partial",
    "HppProto.Props.C86_equal",
    "HppProto.Props.C86_move_from_below",
    "HppProto.Props.C86_copy_from_below"
   ],
   "note": "Proved for all programs except: moves and swaps of a value with a part of itself, copies of a part over the whole that change the allocator, allocators that swap propagates and that may differ. The first reads memory that was freed, as does the second."
  },
  {
   "property": "C87",
   "status": "partial",
   "theorems": [
    "HppProto.Props.C87_memory_partial",
    "HppProto.Props.C87_no_leak_partial",
    "HppProto.Props.C87_copy_allocator",
    "HppProto.Props.C87_swap"
   ],
   "note": "Proved with the exceptions of C86. With an allocator that swap propagates, swapping values of different allocators leaves objects with the wrong one."
  },
  {
   "property": "C88",
   "status": "partial",
   "theorems": [
    "HppProto.Props.C88_exceptions_partial",
    "HppProto.Props.C88_calm_partial"
   ],
   "note": "Proved with the exceptions of C86. With an allocator that copy assignment propagates, a failed assignment may change its target."
  },
  {
   "property": "C89",
   "status": "partial",
   "theorems": [
    "HppProto.Props.C89_distinct_partial",
    "HppProto.Props.C89_legal",
    "HppProto.Props.C89_global",
    "HppProto.Props.C89_oneofs",
    "HppProto.Props.C89_methods",
    "HppProto.Props.C89_package_in_message",
    "HppProto.Props.C89_package_is_class",
    "HppProto.Props.C89_package_is_function",
    "HppProto.Props.C89_optional_refused"
   ],
   "note": "Proved except for schemas that are accepted although their headers clash: oneofs whose names differ by a final underscore, a method called _methods, a package that lies inside something another file declares. Legality of names is proved without exception. Shown besides: proto3 optional fields with upper case names are refused for the name of a oneof that is never declared."
  },
  {
   "property": "C90",
   "status": "partial",
   "theorems": [
    "HppProto.Props.C90_writes_partial",
    "HppProto.Props.C90_disagreement",
    "HppProto.Props.C90_wide",
    "HppProto.Props.C90_value"
   ],
   "note": "Proved for classes whose oneofs have no 64-bit integers and that do not use Any; an unset google.protobuf.Value has no form. Refuted beyond: a 64-bit integer in a oneof is written without quotes; an unset Value gives text that is not JSON."
  },
  {
   "property": "C91",
   "status": "proved",
   "theorems": [
    "HppProto.Props.C91_reads",
    "HppProto.Props.C91_unique",
    "HppProto.Props.C91_null",
    "HppProto.Props.C91_utf8"
   ],
   "note": "Any is not modelled. Shown besides: null for one member of a oneof drops the other member; a required string is not checked to be UTF-8."
  },
  {
   "property": "C92",
   "status": "partial",
   "theorems": [
    "HppProto.Props.C92_round_trip_partial",
    "HppProto.Props.C92_injective_partial",
    "HppProto.Props.C92_disagreement",
    "HppProto.Props.C92_null",
    "HppProto.Props.C92_enum"
   ],
   "note": "Proved for classes whose oneofs have no 64-bit integers and messages in which no optional field or oneof holds a null Value and every required enum has a name; refuted beyond. Any is not modelled."
  },
  {
   "property": "C93",
   "status": "proved",
   "theorems": [
    "HppProto.Props.C93_dynamic_to_generated",
    "HppProto.Props.C93_generated_to_dynamic"
   ],
   "note": "For generated classes whose oneofs have no 64-bit integers (writing). Any is not modelled."
  },
  {
   "property": "C94",
   "status": "proved",
   "theorems": [
    "HppProto.Props.C94_defined",
    "HppProto.Props.C94_unclosed"
   ],
   "note": "Given room on the stack for as many levels of calls as there are bytes (there is no recursion limit); Any is not modelled. Shown besides: text that is not JSON, with a bracket missing, is accepted."
  },
  {
   "property": "C95",
   "status": "partial",
   "theorems": [
    "HppProto.Props.C95_exact",
    "HppProto.Props.C95_defined_partial",
    "HppProto.Props.C95_overflow"
   ],
   "note": "Exact whenever the generator ends; proved to end if no two neighbouring numbers are 2^31 or more apart. Refuted beyond: the difference of two int overflows, which is undefined behaviour in the generator."
  },
  {
   "property": "C96",
   "status": "partial",
   "theorems": [
    "HppProto.Props.C96_fields_partial",
    "HppProto.Props.C96_presence_partial",
    "HppProto.Props.C96_oneofs",
    "HppProto.Props.C96_order",
    "HppProto.Props.C96_entries",
    "HppProto.Props.C96_int32",
    "HppProto.Props.C96_unpacked",
    "HppProto.Props.C96_delimited_map",
    "HppProto.Props.C96_required_enum",
    "HppProto.Props.C96_required_initial"
   ],
   "note": "Proved for the default option, except for packed = false where the feature says packed, maps under DELIMITED, and closed enums required by a feature; refuted for these. A required closed enum starts out as zero."
  },
  {
   "property": "C97",
   "status": "partial",
   "theorems": [
    "HppProto.Props.C97_scopes_partial",
    "HppProto.Props.C97_omitted_partial",
    "HppProto.Props.C97_prefix",
    "HppProto.Props.C97_string_default"
   ],
   "note": "Proved unless a scope ends in the middle of a name, or a string or bytes field with a default value loses its presence; refuted for both."
  },
  {
   "property": "C98",
   "status": "partial",
   "theorems": [
    "HppProto.Props.C98_round_trip_partial",
    "HppProto.Props.C98_objects"
   ],
   "note": "Proved for files and options without the conditions listed in Supported, each of which is refuted: C10, C18, C74, C97_string_default, C99_dropped. Extensions are kept as unknown fields."
  },
  {
   "property": "C99",
   "status": "partial",
   "theorems": [
    "HppProto.Props.C99_unknown_partial",
    "HppProto.Props.C99_dropped"
   ],
   "note": "Proved except for messages without fields and extension ranges, which keep unknown fields in memory and do not write them."
  },
  {
   "property": "C100",
   "status": "proved",
   "theorems": [
    "HppProto.Props.C100_response",
    "HppProto.Props.C100_paths",
    "HppProto.Props.C100_unknown"
   ],
   "note": "The text of the headers is the subject of other properties."
  },
  {
   "property": "C101",
   "status": "partial",
   "theorems": [
    "HppProto.Props.C101_includes_partial",
    "HppProto.Props.C101_imports",
    "HppProto.Props.C101_acyclic",
    "HppProto.Props.C101_missing"
   ],
   "note": "Proved except for the .desc.hpp of an imported file without messages, which is included and never generated (refuted), and for names with a backslash."
  },
  {
   "property": "C102",
   "status": "partial",
   "theorems": [
    "HppProto.Props.C102_set_partial",
    "HppProto.Props.C102_variable",
    "HppProto.Props.C101_missing"
   ],
   "note": "Completeness and the literal proved in general; that no name occurs twice is proved if the files have messages, which is what the generator checks names for. The set of a file that imports a file without messages names a variable that no header declares (refuted)."
  },
  {
   "property": "C103",
   "status": "proved",
   "theorems": [
    "HppProto.Props.C103_options",
    "HppProto.Props.C103_any_text"
   ],
   "note": "Names are judged by what C55 proves about dotted names."
  },
  {
   "property": "C104",
   "status": "proved",
   "theorems": [
    "HppProto.Props.C104_methods",
    "HppProto.Props.C104_paths"
   ],
   "note": "Distinct paths for service names without a dot and method names without a slash, which protoc guarantees."
  },
  {
   "property": "C105",
   "status": "partial",
   "theorems": [
    "HppProto.Props.C105_writes_partial",
    "HppProto.Props.C105_nested",
    "HppProto.Props.C105_zero",
    "HppProto.Props.C105_disagreement"
   ],
   "note": "Proved for messages in which no payload of an Any has messages that are neither in a map nor of a well-known type. The code writes such messages without braces, so the text is not JSON (refuted); a wrapper that is not set as payload leaves nothing after the colon."
  },
  {
   "property": "C106",
   "status": "proved",
   "theorems": [
    "HppProto.Props.C106_reads"
   ],
   "note": "For messages whose payloads can be encoded; encodable_regular shows this for payloads without timestamps, durations, field masks and Anys that are encoded without error."
  },
  {
   "property": "C107",
   "status": "partial",
   "theorems": [
    "HppProto.Props.C107_round_trip_partial",
    "HppProto.Props.C107_empty",
    "HppProto.Props.C107_generated",
    "HppProto.Props.C107_utf8",
    "HppProto.Props.C107_disagreement"
   ],
   "note": "Proved for the messages of C105_writes_partial. The empty Any is written as {} which is not read (refuted); the URL is not checked to be UTF-8."
  },
  {
   "property": "C108",
   "status": "proved",
   "theorems": [
    "HppProto.Props.C108_url",
    "HppProto.Props.C108_read",
    "HppProto.Props.C108_write"
   ],
   "note": ""
  },
  {
   "property": "C109",
   "status": "partial",
   "theorems": [
    "HppProto.Props.C109_conversions_partial"
   ],
   "note": "For the messages of C107_round_trip_partial."
  },
  {
   "property": "C110",
   "status": "proved",
   "theorems": [
    "HppProto.Props.C110_accepts",
    "HppProto.Props.C110_rejects",
    "HppProto.Props.C110_names",
    "HppProto.Props.C110_fields"
   ],
   "note": ""
  },
  {
   "property": "C111",
   "status": "partial",
   "theorems": [
    "HppProto.Props.C111_accepted",
    "HppProto.Props.C111_kinds_partial",
    "HppProto.Props.C111_reads_partial",
    "HppProto.Props.C111_round_trip_partial"
   ],
   "note": "Proved for proper sets of files (Spec.Proper, what compilers produce) whose maps have no closed enums as values and are not delimited by a feature; for other accepted sets it is false (C112, C74)."
  },
  {
   "property": "C112",
   "status": "partial",
   "theorems": [
    "HppProto.Props.C112_pairs_partial",
    "HppProto.Props.C112_no_value"
   ],
   "note": "Refuted: a map entry without value field is accepted, and reading bytes, reading JSON and writing JSON are then undefined. Proved for proper sets. The documentation of the factory (factory.hpp 48-52) asks for trusted, prevalidated descriptors."
  },
  {
   "property": "C113",
   "status": "partial",
   "theorems": [
    "HppProto.Props.C113_default_partial",
    "HppProto.Props.C113_bytes",
    "HppProto.Props.C113_bool"
   ],
   "note": "Proved for all types, with the text of the descriptor for bytes. Refuted for bytes: escapes in the descriptor are not decoded. A bool default other than true or false is taken as false without error."
  },
  {
   "property": "C114",
   "status": "partial",
   "theorems": [
    "HppProto.Props.C114_types",
    "HppProto.Props.C114_field_types",
    "HppProto.Props.C114_round_trip",
    "HppProto.Props.C114_reads",
    "HppProto.Props.C114_conversions_partial"
   ],
   "note": "Round trip without Any and reading with Any are proved in full; the conversions with Any only for payloads without messages of their own, since writing those is wrong (C105)."
  },
  {
   "property": "C115",
   "status": "proved",
   "theorems": [
    "HppProto.Props.C115_recognizes",
    "HppProto.Props.C115_ordinary"
   ],
   "note": ""
  },
  {
   "property": "C116",
   "status": "partial",
   "theorems": [
    "HppProto.Props.C116_read_back_partial",
    "HppProto.Props.C116_read_back_kept_partial",
    "HppProto.Props.C116_same_limit_fails",
    "HppProto.Props.C116_overlong_fails"
   ],
   "note": "Proved for message types without closed enums without presence; types that keep unknown fields must have no closed enum, and the kept records must have minimal tags. Missing: closed enums in types that keep unknown fields. Refuted for kept records with overlong tags: what is written cannot be read. Refuted with equal limits: a map entry read without its message value gets one that is one level too deep to write."
  },
  {
   "property": "C117",
   "status": "proved",
   "theorems": [
    "HppProto.Props.C117_outcomes",
    "HppProto.Props.C117_levels",
    "HppProto.Props.C117_written_set",
    "HppProto.Props.C117_descs",
    "HppProto.Props.C117_duplicates",
    "HppProto.Props.C117_distinct"
   ],
   "note": ""
  },
  {
   "property": "C118",
   "status": "proved",
   "theorems": [
    "HppProto.Props.C118_same_bytes",
    "HppProto.Props.C118_factory",
    "HppProto.Props.C118_recognizes"
   ],
   "note": "Assumes that the built-in bytes, which the build generates and which are not in the repository, are the written form of files that say what protobuf's files say."
  },
  {
   "property": "C119",
   "status": "partial",
   "theorems": [
    "HppProto.Props.C119_presence",
    "HppProto.Props.C119_default_partial",
    "HppProto.Props.C119_write_absent",
    "HppProto.Props.C119_other_default",
    "HppProto.Props.C119_nan_unequal",
    "HppProto.Props.C119_emplace_moved"
   ],
   "note": "Presence and values: proved for all histories. Defaults and equality: proved if nothing is written to an absent object through a reference and no absent optional with another default is assigned. Refuted otherwise, and for the default nan."
  },
  {
   "property": "C120",
   "status": "proved",
   "theorems": [
    "HppProto.Props.C120_lists"
   ],
   "note": "Histories without alias_from; see C121."
  },
  {
   "property": "C121",
   "status": "partial",
   "theorems": [
    "HppProto.Props.C121_unshared",
    "HppProto.Props.C121_append_lost",
    "HppProto.Props.C121_append_kept",
    "HppProto.Props.C121_alias_overwrites"
   ],
   "note": "Proved for fields with different content pointers. Refuted after alias_from: fields of numbers also share room for more elements, so that one append replaces another; clearing and filling an alias overwrites the original."
  },
  {
   "property": "C122",
   "status": "partial",
   "theorems": [
    "HppProto.Props.C122_room_partial",
    "HppProto.Props.C122_reserve",
    "HppProto.Props.C122_quadratic"
   ],
   "note": "Proved: no allocation within the capacity. Refuted: appending n elements one by one allocates n(n+1)/2."
  },
  {
   "property": "C123",
   "status": "partial",
   "theorems": [
    "HppProto.Props.C123_struct_partial",
    "HppProto.Props.C123_written_partial",
    "HppProto.Props.C123_set_get_partial",
    "HppProto.Props.C123_survives_partial",
    "HppProto.Props.C123_default_ignored",
    "HppProto.Props.C123_default_lost",
    "HppProto.Props.C123_string_default",
    "HppProto.Props.C123_no_extendee"
   ],
   "note": "Proved for values that have an encoding. Refuted: a singular extension that has its default value is not written, so setting it to the default leaves the earlier value in place; a default string with a zero byte is cut in new objects."
  },
  {
   "property": "C124",
   "status": "proved",
   "theorems": [
    "HppProto.Props.C124_independent_trees",
    "HppProto.Props.C124_result",
    "HppProto.Props.nodeOps_ok"
   ],
   "note": "Histories without aliases in which source and destination of a copy are apart; other values of fields are opaque, and there are no oneofs in this model."
  },
  {
   "property": "C125",
   "status": "partial",
   "theorems": [
    "HppProto.Props.C125_copy_partial",
    "HppProto.Props.C125_self_copy_erases",
    "HppProto.Props.C125_part_over_whole",
    "HppProto.Props.C125_whole_into_part"
   ],
   "note": "Proved for a source and a destination that are apart. Refuted: copying a message onto itself erases the messages in it; copying a part over the whole reads through a null pointer; copying the whole into a part never ends."
  },
  {
   "property": "C126",
   "status": "partial",
   "theorems": [
    "HppProto.Props.C126_no_side_effects_partial",
    "HppProto.Props.C126_alias_shares",
    "HppProto.Props.C126_stale_reference"
   ],
   "note": "Proved for histories without aliases. Refuted after alias_from, which shares nested messages, and for references to elements that are kept while the list grows."
  },
  {
   "property": "C127",
   "status": "proved",
   "theorems": [
    "HppProto.Props.C127_values",
    "HppProto.Props.C127_others",
    "HppProto.Props.viewOps_ok",
    "HppProto.Props.C127_merge_shared"
   ],
   "note": "For read_binpb and assignments, without padded input and extensions (see C128); bytes are given as the changes they ask for. pb_serializer::deserialize, which does not clear the message first, changes messages that share a recursive field with it (C127_merge_shared)."
  },
  {
   "property": "C128",
   "status": "partial",
   "theorems": [
    "HppProto.Props.C128_defined_partial",
    "HppProto.Props.C128_padded_aliases_input",
    "HppProto.Props.C128_unknown_enum_dangles",
    "HppProto.Props.C128_extension_twice_ub",
    "HppProto.Props.C128_extension_once"
   ],
   "note": "Proved for messages that are not extendable and input that is not padded. Refuted: padded strings change with the input (documented); an unknown enum number in an extendable message leaves a view of a local array; an extendable message field that occurs twice with extensions is read through a null pointer."
  },
  {
   "property": "C129",
   "status": "partial",
   "theorems": [
    "HppProto.Props.C129_sent_partial",
    "HppProto.Props.C129_write_status",
    "HppProto.Props.C129_bad_request"
   ],
   "note": "All schedules that keep the rules, if the request of a method without client streaming can be encoded. Refuted otherwise: async_call calls OnDone and makes no call, and start_call() then uses a null pointer. Response types without closed enums in oneofs."
  },
  {
   "property": "C130",
   "status": "partial",
   "theorems": [
    "HppProto.Props.C130_received_partial",
    "HppProto.Props.C130_nothing_received"
   ],
   "note": "Proved whenever a message was received. Refuted: if none was received, get_response reports OK and an empty message."
  },
  {
   "property": "C131",
   "status": "proved",
   "theorems": [
    "HppProto.Props.C131_blocking"
   ],
   "note": "What BlockingUnaryCallImpl of gRPC does with the two serialization functions is an assumption, stated at blockingCall."
  },
  {
   "property": "C132",
   "status": "partial",
   "theorems": [
    "HppProto.Props.C132_value_partial",
    "HppProto.Props.C132_moved_from",
    "HppProto.Props.C132_moved_from_unequal"
   ],
   "note": "Full for always-equal allocators and programs that do not read or copy what was moved from. Refuted: copying or comparing what was moved from is undefined; so are move assignment from it and swapping it with unequal allocators."
  },
  {
   "property": "C133",
   "status": "partial",
   "theorems": [
    "HppProto.Props.C133_owned_partial",
    "HppProto.Props.C133_allocator",
    "HppProto.Props.C133_swap_propagates"
   ],
   "note": "Refuted for allocators that propagate on swap and are not always equal: swap exchanges allocators and values but not memory."
  },
  {
   "property": "C134",
   "status": "partial",
   "theorems": [
    "HppProto.Props.C134_exception_partial",
    "HppProto.Props.C134_noexcept_partial",
    "HppProto.Props.C134_assign_loses",
    "HppProto.Props.C134_swap_noexcept"
   ],
   "note": "Refuted for unequal allocators that propagate: a copy assignment that throws loses the value of its target, and swap, declared noexcept, may throw."
  },
  {
   "property": "C135",
   "status": "partial",
   "theorems": [
    "HppProto.Props.C135_set_partial",
    "HppProto.Props.C135_message_partial",
    "HppProto.Props.C135_messages_partial",
    "HppProto.Props.C135_enum_name_as_string",
    "HppProto.Props.C135_enum_span",
    "HppProto.Props.C135_statement_false"
   ],
   "note": "Messages as arguments under the hypotheses of C62. Refuted: string fields take enum names; repeated enum fields do not take enum_numbers_span, although the comment on it shows that use."
  },
  {
   "property": "C136",
   "status": "partial",
   "theorems": [
    "HppProto.Props.C136_failed_partial",
    "HppProto.Props.C136_names_prefix",
    "HppProto.Props.C136_chain",
    "HppProto.Props.C136_modify",
    "HppProto.Props.C136_disagreement",
    "HppProto.Props.C136_statement_false"
   ],
   "note": "The claim on chains is proved in full. Refuted for lists of enum names and of messages: a failing call replaces the old elements."
  },
  {
   "property": "C137",
   "status": "partial",
   "theorems": [
    "HppProto.Props.C137_get_partial",
    "HppProto.Props.C137_set_get_partial",
    "HppProto.Props.C137_typed",
    "HppProto.Props.C137_no_lists",
    "HppProto.Props.C137_statement_false"
   ],
   "note": "Refuted for repeated strings, byte strings and messages, which can be set but not got."
  },
  {
   "property": "C138",
   "status": "partial",
   "theorems": [
    "HppProto.Props.C138_adopt_partial",
    "HppProto.Props.C138_adopt_typed",
    "HppProto.Props.C138_owner_dangles"
   ],
   "note": "Views, and the typed references. Refuted for field_mref::adopt of std::string and std::vector: the parameter is a copy that dies with the call."
  },
  {
   "property": "C139",
   "status": "proved",
   "theorems": [
    "HppProto.Props.C139_random_access",
    "HppProto.Props.C139_range_for"
   ],
   "note": "For lists of fewer than 2^32 elements, which is what the storage can hold."
  },
  {
   "property": "C140",
   "status": "partial",
   "theorems": [
    "HppProto.Props.C140_numbers_partial",
    "HppProto.Props.C140_proxies",
    "HppProto.Props.C140_statement_false"
   ],
   "note": "Repeated numbers. Refuted for strings, bytes, enums and messages: the assignment changes a temporary; what the algorithms do instead is proved for all lists."
  },
  {
   "property": "C141",
   "status": "partial",
   "theorems": [
    "HppProto.Props.C141_stable_partial",
    "HppProto.Props.C141_reference_destroyed",
    "HppProto.Props.C141_reference_assigned",
    "HppProto.Props.C141_two_references",
    "HppProto.Props.C141_fields_view",
    "HppProto.Props.C141_statement_false"
   ],
   "note": "As long as the reference object lives and is not assigned to. Refuted otherwise: an iterator holds the address of that object."
  },
  {
   "property": "C142",
   "status": "proved",
   "theorems": [
    "HppProto.Props.C142_sent",
    "HppProto.Props.C142_overlapping"
   ],
   "note": "C142_overlapping shows what a handler that breaks the rule of one write at a time gets. Requests whose types have closed enums in oneofs are excluded (C18)."
  },
  {
   "property": "C143",
   "status": "partial",
   "theorems": [
    "HppProto.Props.C143_token_partial",
    "HppProto.Props.C143_late_token",
    "HppProto.Props.C143_statement_false",
    "HppProto.Props.C143_after_done"
   ],
   "note": "For methods with a single request, and in streams as long as no read was started since. Refuted for every token that is kept until the next request arrives."
  },
  {
   "property": "C144",
   "status": "partial",
   "theorems": [
    "HppProto.Props.C144_text_partial",
    "HppProto.Props.C144_reads_partial",
    "HppProto.Props.C144_defined",
    "HppProto.Props.C144_refused",
    "HppProto.Props.C144_statement_false"
   ],
   "note": "For character arrays only if the text fills them up to the zero at the end, as in literals; refuted for longer arrays. Generated messages."
  },
  {
   "property": "C145",
   "status": "proved",
   "theorems": [
    "HppProto.Props.C145_option",
    "HppProto.Props.C145_own",
    "HppProto.Props.C145_restored"
   ],
   "note": ""
  },
  {
   "property": "C146",
   "status": "partial",
   "theorems": [
    "HppProto.Props.C146_documented_partial",
    "HppProto.Props.C146_written",
    "HppProto.Props.C146_string",
    "HppProto.Props.C146_cleared",
    "HppProto.Props.C146_statement_false"
   ],
   "note": "For messages in which the singular fields without presence that are not set are numbers or bools that read as zero; refuted for strings, bytes and enums (null) and for numbers that were cleared. That glaze writes null for the references is assumed."
  },
  {
   "property": "C147",
   "status": "proved",
   "theorems": [
    "HppProto.Props.C147_equal",
    "HppProto.Props.C147_order",
    "HppProto.Props.C147_first"
   ],
   "note": "For comparisons of keys that agree with the order of the map (equality), and for total orders (<)."
  },
  {
   "property": "C148",
   "status": "proved",
   "theorems": [
    "HppProto.Props.C148_programs",
    "HppProto.Props.C148_extract_replace"
   ],
   "note": "Vectors that were moved from are taken to be empty; comparators have no state; no map is moved to itself; no exceptions."
  },
  {
   "property": "C149",
   "status": "proved",
   "theorems": [
    "HppProto.Props.C149_reads",
    "HppProto.Props.C149_aliases",
    "HppProto.Props.C149_compare",
    "HppProto.Props.C149_compare_value",
    "HppProto.Props.C149_monadic"
   ],
   "note": "Views of objects that were destroyed are undefined behaviour in the model, and shown to be the only such reads besides operator* of an optional_indirect_view of nothing."
  },
  {
   "property": "C150",
   "status": "proved",
   "theorems": [
    "HppProto.Props.C150_others",
    "HppProto.Props.C150_new",
    "HppProto.Props.C150_forgets"
   ],
   "note": "The text is given as the members that it has; repeated fields and strings are values that are replaced, their memory is C128."
  },
  {
   "property": "C151",
   "status": "proved",
   "theorems": [
    "HppProto.Props.C151_accepts",
    "HppProto.Props.C151_unambiguous",
    "HppProto.Props.C151_value",
    "HppProto.Props.C151_words"
   ],
   "note": "std::from_chars is modelled by its specification; which decimal numbers are in range is a parameter; rounding is left to the compiler."
  },
  {
   "property": "C152",
   "status": "proved",
   "theorems": [
    "HppProto.Props.C152_generated",
    "HppProto.Props.C152_reaches",
    "HppProto.Props.C152_twice"
   ],
   "note": "gRPC is modelled by what it does with registered methods: no two of one name, calls go by name; PlainNames says which names protoc allows."
  },
  {
   "property": "C153",
   "status": "proved",
   "theorems": [
    "HppProto.Props.C153_calls",
    "HppProto.Props.C153_or_else_value",
    "HppProto.Props.C153_or_else_none",
    "HppProto.Props.C153_compare"
   ],
   "note": "For allocators that are not propagated by swap unless all are equal, as in C86; the function passed is a parameter."
  },
  {
   "property": "C154",
   "status": "proved",
   "theorems": [
    "HppProto.Props.C154_written",
    "HppProto.Props.C154_read",
    "HppProto.Props.C154_read_packed",
    "HppProto.Props.C154_exchange",
    "HppProto.Props.C154_base64"
   ],
   "note": "The bytes of packed numbers are in one piece; regions are C16."
  },
  {
   "property": "C155",
   "status": "proved",
   "theorems": [
    "HppProto.Props.C155_asked",
    "HppProto.Props.C155_compiled",
    "HppProto.Props.C155_checked",
    "HppProto.Props.C155_read",
    "HppProto.Props.C155_read_reason",
    "HppProto.Props.C155_write",
    "HppProto.Props.C155_write_unchecked",
    "HppProto.Props.C155_differ",
    "HppProto.Props.C155_dynamic_asked",
    "HppProto.Props.C155_dynamic_read",
    "HppProto.Props.C155_dynamic_write"
   ],
   "note": "C51 is about builds with the check, at run time: C155_differ shows that constant evaluation reads and writes strings that are not UTF-8."
  },
  {
   "property": "C156",
   "status": "proved",
   "theorems": [
    "HppProto.Props.C156_named",
    "HppProto.Props.C156_first",
    "HppProto.Props.C156_compiles",
    "HppProto.Props.C156_member",
    "HppProto.Props.C156_required",
    "HppProto.Props.C156_not_checked"
   ],
   "note": "C156_required: a required field without default starts with 0, not with the first value. C156_not_checked: that the default names a value is left to protoc."
  }
 ]
}