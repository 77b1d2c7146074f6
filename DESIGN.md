# Design of the hpp-proto model

The model lives in `lean/Verif/`. Every definition that models code carries a
comment naming the file and lines in the hpp-proto checkout (`/repo`).
`properties.jsonl` lists the properties; `MANIFEST.json` maps each to theorem
names; `seeded/LOG.jsonl` records the wrong programs the theorems were tried on.

## Conventions

* A byte is `BitVec 8`. Scalars are raw 64-bit patterns (`BitVec 64`).
* Outcomes are explicit (`Model/Outcome.lean`): success, an error code, undefined
  behaviour (an access outside a buffer, a slot read through the wrong member, an
  indeterminate value), an escaping C++ exception, or "fuel exhausted". Theorems
  show that the last three do not occur, or exhibit an input on which they do.
* Schemas and messages are data: a theorem over `(C : Cfg)` (generated types) or
  `(T : DynTypes)` (dynamic types) covers every message type within the modelled
  field kinds. All field kinds of protobuf are modelled.
* C++ recursion is bounded by the recursion limit that the code itself
  enforces, so recursive functions recurse on the remaining budget. Loops carry
  fuel computed from the input; that it suffices is proved, not assumed.
* Specifications are in `Verif/Spec/`, models in `Verif/Model/`, helper lemmas
  in `Verif/Proofs/`, and the claims in `Verif/Props/`, each followed by examples
  that meet its hypotheses.
* A property that the code violates keeps its full statement in
  `properties.jsonl`; the theorem that holds is called `…_partial` and stands
  beside a proved counterexample.

## Plan per property

| id | model | proof |
|----|-------|-------|
| C01-C05 | `unchecked_pack_varint`, `shift_mix_parse_varint` (unrolled exactly), `unchecked_parse_bool`, `varint_size` over `BitVec` | compare with base-128 arithmetic, bit by bit; induction on the value for the writer |
| C06 | `make_tag`, `read_tag` (the 4-byte variant) | arithmetic; counterexample for 5-byte tags |
| C07-C13 | schema-driven `size_cache_counter`, `message_size_calculator`, `serialize`; cache as an array with bounds; buffers | induction on depth; refinement to a naive encoder (`Spec/Wire.lean`) |
| C14, C50, C53, C54 | the writer emits pieces; `chunked_out` and the gRPC sink as state machines over chunks | invariant over the chunk state, for every sink |
| C15 | `resize_contiguous_buffer<false>` then write at the start | counterexample, partial for empty buffer |
| C16, C17 | `basic_in` as a machine over regions with explicit buffers; reads outside are UB | simulation with the reader of a list |
| C10, C18-C26, C51 | `deserialize*`, `skip*`, dispatch, written once over an abstract archive | refinement to a record-by-record reader (`Spec/Records.lean`), then induction |
| C27 | `reverse_indices` tables | counting-sort invariant |
| C28 | `recursion_scope` as counter operations over scope trees | induction on trees |
| C29, C30 | `base64` encode/decode loops | induction by groups of three; counterexample for C30 |
| C31-C34 | duration, timestamp, field mask codecs | digit arithmetic, calendar arithmetic; counterexample for C33 |
| C35, C36 | `message_merger::perform` | induction on depth |
| C37, C42, C43 | `read_binpb`, `pack_any`, extensions | corollaries of the codec theorems |
| C38 | byte encoding of `optional<bool>` and its proxies | invariant over histories |
| C39 | `arena_vector` with capacity and storage blocks | refinement to lists |
| C40, C41, C52 | `flat_map` as two parallel lists, `sort_together` quicksort | sortedness invariant, refinement to finite maps |
| C44-C47, C55-C58 | lexical emitter of the code generator | a small C++ lexer as specification (`Spec/Cpp.lean`) |
| C48 | registration, import resolution and Kahn's algorithm over the file graph | iff with absence of cycles |
| C49 | slot/ordinal assignment in the factory | invariant over the field list |
| C59 | the archive with padding, views into the input | simulation; counterexample for views |
| C60-C64 | the field references of dynamic messages over slots with tagged contents | frame lemmas, invariant over all histories; counterexamples |
| C65 | the three passes of the dynamic writer | refinement to the generated writer over the corresponding type (`Spec/StaticType.lean`) |
| C66 | the dynamic reader over the same archive | simulation with the generated reader, function by function |
| C67 | both | C65, C10 and C66 composed |
| C68 | the reactor object of a callback call, gRPC as a parameter | case analysis with C16, C50; counterexample |
| C69 | the server reactor driven by a list of events, the handler an arbitrary state machine; a trace and a referee (`Spec/Reactor.lean`) | invariant over all schedules; counterexamples |
| C70 | the same trace | induction over the schedule, C50 |
| C71-C73 | `descriptor_pool::init` whole: counting, files, messages, enums, imports, fields, oneofs, extensions, types; tables with capacities; hash order a parameter | one invariant per stage; comparison with `WellFormed` (`Spec/PoolSchema.lean`) and `Mirrors` (`Spec/PoolView.lean`) |
| C74 | the constructor of field descriptors | case analysis; counterexamples |
| C75 | the key writer and key lookup of dynamic JSON | from C71, C73; counterexamples |
| C76-C78 | `write_json` and `read_json` of dynamic messages over the functions of glaze they call | induction over nesting; relation `FormAt` between messages and JSON values, grammar `JsonText` |
| C79 | the same reader on any bytes | invariant: the message stays well-formed; counterexample |
| C80 | the same reader | members read one by one up to the unknown key; counterexample |
| C81, C82 | the same | writer total on reachable messages; counterexamples |
| C83-C85 | the generator's resolution of dependencies, ordering of messages, marking of recursive fields and what it writes, as a list of declarations and definitions | invariant of the ordering loop; termination by the number of unresolved dependencies; `Needs`, `Settled` (accessibility) specify cycles; counterexamples |
| C86-C88 | `optional_indirect` with allocators, addresses and failing allocations; programs over variables and members at any depth; `Vals` specifies values without addresses | separation: every function keeps `Good`, which says what is allocated is what is owned, for any frame; invariant of reachable heaps; counterexamples |
| C89 | names and nesting of declarations in schemas; the name checks; every declaration in the headers with scope, name and kind; `Clash` is the C++ rule | every declaration has a path; declarations of an item lie under its names; names of a level are distinct, so items are apart; induction on nesting; counterexamples |
| C90-C94 | generated classes as data; writer and reader of the generated metadata with `json.hpp` and `util.hpp`; the lexical layer and glaze as for dynamic messages; `GFormAt` relates message and JSON value | writer: induction on depth, each construct spells its form; reader: every spelling is read, by induction on members, maps up to order; definedness: shape invariant; counterexamples |
| C95 | `enum_descriptor` and the body of `is_valid` | sorting is a permutation; continuous lists are intervals; counterexample |
| C96-C99 | members and `pb_meta` entries that the generator writes for each message of a pool, and the schema that `binpb/meta.hpp` makes of them; rules of protobuf in `Spec/Meta.lean` | pool invariants of C71-C75 give each field's description; case analysis by type, label, features; the schemas meet the hypotheses of C10 (`schema_ok`), so its round trip applies; counterexamples |
| C100-C102 | the requested files, the headers of each, their include directives and descriptor sets; import graph of C48, names of C56 and C57 | the response as a map over files and parts; includes project to imports or to a smaller part of the same file; depth of recursion bounded by the number of files; counterexample |
| C103 | `split`, `parse_plugin_options` | fold over the settings, invariant per key |
| C104 | the loops over services and methods | induction; C44 for the literals |
| C105-C107, C109 | `any_message_json_serializer` with `write_any_payload`, `read_any_payload`, `get_type_url`, `parse_wellknown_any_value`; the JSON model of C79-C83 with `Any` at every depth; binary codec of C16-C20 for payloads | induction on depth, three claims at once (message, message in a payload, payload); scan for `@type` by induction on the members; counterexamples through the places of colons in JSON texts |
| C108 | `message_name_from_type_url`, the lookup, both directions of the codec | inversion of reader and writer |
| C110 | `dynamic_message_factory_impl`: `finish_initialize`, layouts, default values, on top of the pool of C71-C75 | the checks of the code are equivalent to a specification of the set of files, through the pool that mirrors it |
| C111, C112 | the message types the factory derives from the pool, in the readers and writers of C64-C70, C76-C83 | the types of proper sets meet what those theorems ask for; counterexample with a map entry without value |
| C113 | `set_default_value`, `parse_default_value`, `setup_enum_field_default_value`, `default_value` of fields | cases on the type; `from_chars` against decimal numbers |
| C114 | the types of a factory (C110) in the JSON functions of C76-C78, C105-C109 | the types of proper sets meet `AnyTypes`: the shapes of the well-known types follow from the files built into the library, written out in `Spec/WellKnown.lean` |
| C115 | `setup_wellknown_types_impl`, `wellknown_validated_` | cases on the table; a message of the pool belongs to the file that declares it |
| C116 | `read_binpb`, `write_binpb` (C01-C29) | induction on the levels: every step of reading keeps the message an object of its type; then C10 |
| C117 | `create_from_binpb`, `create_from_descs`, `make_file_descriptor_set` and the 29 message types of `descriptor.proto` as the generated headers declare them | reading a set is reading its records; C10, C18, C26 and C110 for these types |
| C118 | `wellknown_validated_` as a comparison of written bytes | writing is injective on objects (C10); a factory depends on the comparison only for the given files; C115 |
| C119 | `optional<T, Default>` | simulation of `Option`, invariant over histories |
| C120-C122 | memory of repeated fields: blocks, content pointers, sizes and capacities | each function changes only the block of its field and gives it the specified contents; invariant: no two fields share a block; counterexamples with `alias_from` |
| C123 | `format_extension`: the struct of an extension as a message type beside the classes of C96 | the struct follows the rules; the library of classes and structs meets the conditions of C43; counterexamples |
| C124-C126 | blocks of rows of slots with addresses; message fields, repeated message fields and copying on them; histories of calls on paths | an invariant that separates the blocks of all messages; simulation by trees; counterexamples with aliases and overlapping copies |
| C127, C128 | blocks of values and of structs with views and pointers; reading as the changes that bytes ask for, with errors anywhere; histories of reads and assignments | an invariant: each message shows a tree and reads no block that is written again; a mutual induction on the changes; counterexamples for padded input, extensions and reading without clearing |
| C129-C131 | `ClientCallbackReactor` with buffers that gRPC points to, driven by any schedule of user calls and gRPC callbacks; `Stub::call` | an invariant between the buffers and a bookkeeping of the schedule without buffers; C50 and C16 for the bytes; counterexamples for requests that cannot be encoded and for absent responses |
| C132-C134 | `indirect` with allocators, addresses, and exceptions from allocations, constructors, assignments and swaps of values; `Ref` specifies values without them | every operation keeps a relation between memory and reference (owned once, equal allocators, same values), by induction over programs; counterexamples for what was moved from and for propagating allocators |
| C135-C138 | `set_field_by_*`, `field_value_by_*`, `typed_ref_by_*`, `modify_field_by_*`, chains of `expected_message_mref`, and `adopt`, on top of the model of dynamic messages; arguments and results by their C++ type | case analysis over kinds and arguments on top of C60 and C62; induction over lists of names, messages and calls; counterexamples for lists and enum names |
| C139-C141 | `repeated_field_iterator` with 64-bit indices and signed moves, the reference objects it points to, and the standard algorithms that write through it | induction over moves, loops and histories; counterexamples for proxies and for reference objects that end |
| C142-C143 | `ServerRPC` with the buffers that gRPC and `RequestToken` point to, driven by any schedule of handler calls and gRPC callbacks | an invariant between the buffers and a bookkeeping of the schedule without buffers; counterexamples for tokens that are kept |
| C144 | the overloads of `read_json`: the view that each kind of string gives | cases; counterexample for arrays longer than the text |
| C145 | the thread-local flag and its guards, driven by any history of steps of any threads | an invariant: the flag and the saved values are the options of the open calls |
| C146 | the writer of dynamic messages with `always_print_fields_with_no_presence` | induction over the nesting, on top of the proofs for C76; counterexamples for strings and for cleared numbers |
| C147 | the comparison operators of `flat_map` | induction over the two sorted lists of entries; lexicographic orders are total |
| C148 | numbered maps and containers, with copy, move, swap, `extract`, `replace` and all calls of C40 | refinement of finite maps, step by step, on top of C40 |
| C149 | `indirect_view` and `optional_indirect_view` as pointers to numbered objects that begin and end to live | the memory after a program is a function of its history; induction over programs |
| C150 | the pointers of non-owning messages while JSON is read | invariant: the message and what was allocated since point only to what was allocated since |
| C151 | `numeric_literal::floating` and `valid_float_spelling`, with `std::from_chars` as a longest-prefix reader | a grammar of decimal numbers; reading inverts writing, both ways |
| C152 | the constructors of `Stub` and `CallbackService`, over the structs of C104; gRPC as a table of names | the array of a stub by induction over ordinals; names are distinct by C104, so a lookup finds the one entry |
| C153 | `and_then`, `transform`, `or_else`, comparisons with values, on top of the model of C86 | by cases; copies and moves are steps of C86, C87, C88 |
| C154 | the branches on `std::endian::native`, with memory as bytes in the order of the platform | little-endian bytes of numbers and back; lists of pieces; arithmetic for base64 |
| C155 | `utf8_validation_failed` with the macro and constant evaluation as a switch; the reader and writer, also of dynamic messages, with two validators | the two readers step by step (equal, or `bad_message`); the bytes and the depth do not depend on the validator |
| C156 | enumerators and default values as the generator writes them; what a name in a scoped enum means | distinct names from the check on enums (C89); induction on the values |

Nothing in the list is believed inexpressible.

## Trusted base

* Lean's kernel (4.33.0) and its three standard axioms; see the last section. No
  axiom is added, no `sorry`, `native_decide`, `bv_decide`, `implemented_by` or
  `unsafe` is used. Mathlib is not used.
* That the model says what the C++ code does. The code was read, not run. Each
  definition cites the lines it models, so that the comparison can be repeated.
* That the specifications in `Verif/Spec/` say what the English properties mean.
* Library functions modelled by their specifications: `std::from_chars` and
  `glz::to_chars` for integers (`Model/Decimal.lean`), the `std::chrono` calendar
  (`Model/Calendar.lean`; `calendar` proves that it is a bijection), the JSON
  escape table of glaze, `std::partition_point`, `lower_bound`, `rotate` and
  `unique` (by what they return), `grpc::Slice`, the order in which gRPC calls a
  reactor (any order that the rules in `Spec/Reactor.lean` allow), `absl::CEscape` (what protoc
  does to default values of bytes fields), and the lexical rules of C++.
* The library glaze: strings, numbers and skipping are a parameter `Glaze` of the JSON theorems, which
  assume the laws `Glaze.Lawful` (`Spec/JsonText.lean`). `refGlaze_lawful` shows that the laws can be met.
  C146 also assumes that glaze writes an object that converts to `bool` and has `has_value()` and `value()`, and is false, as `null`.
* The descriptors that protobuf's own files are compiled to (`wellknown_type_pbs` in `factory_addons.hpp`, not part of the
  repository as text): the theorems of C114, C115 and C118 assume that a file that equals one of them is, as far as the model of
  files goes, one of those in `Spec/WellKnown.lean`.
* The UTF-8 validator is a parameter of the theorems (any predicate on byte
  lists; the dynamic reader needs that it accepts the empty string).
* The platform: little-endian (except in C154), two's complement, 64-bit `size_t`.

## Modelled and not modelled

| code | state |
|------|-------|
| `binpb/varint.hpp` | modelled (scalar code paths) |
| `binpb/meta.hpp` | tags, wire types, `reverse_indices`; the metadata templates are the data type `MsgD` |
| `binpb/serialize.hpp` | modelled: three passes, all buffers, sinks and modes |
| `binpb/deserialize.hpp` | modelled: region machine, all field kinds, packed/unpacked, groups, maps, oneofs, unknown fields, skipping, padded input. The branches for big-endian targets alone (C154). Of the branches for constant evaluation only the one of the UTF-8 check (C155). Not: `assert`s |
| `binpb.hpp`, `recursion.hpp`, `merge.hpp` | modelled (memory resources have no effect on contents) |
| `flat_map.hpp` | modelled except comparators of other types or with state, allocator arguments, exceptions of `replace` |
| `memory_resource_utils.hpp` | `arena_vector`, alone and as used by reading into non-owning messages; `bit_cast_view` (C154); not the memory resources themselves |
| `field_types.hpp` | `optional<bool>` (C38) and `optional<T, Default>` (C119) with their functions; elsewhere optionals are data |
| `optional_indirect.hpp` | constructors, assignments, `swap`, `reset`, `emplace`, `operator==`, for objects of one type that have such members; `optional_indirect_view` as a member of non-owning messages; `and_then`, `transform`, `or_else` |
| `indirect.hpp` | all functions, for values that hold no variable of the program; comparisons as reading both values; rvalues of type `T` like lvalues |
| `indirect_view.hpp`, `optional_indirect.hpp` 367-470 | modelled except comparisons with a value or `nullptr` |
| `json/base64.hpp`, `duration_codec.hpp`, `timestamp_codec.hpp`, `field_mask_codec.hpp` | modelled |
| `dynamic_message/json.hpp`, `json/util.hpp` | writer and reader of dynamic and generated messages, with `Any` in dynamic messages and with `always_print_fields_with_no_presence`; what `skip_value` does with texts that are not JSON is abstract |
| `json.hpp`, `json/field_wrappers.hpp`, `hpp_generator.cpp` 1815-2279 | the JSON of generated messages with owning traits; with non-owning traits, the pointers to recursive messages while reading; the overloads of `read_json`; the flag for `always_print_fields_with_no_presence`; not `Any` |
| `descriptor_pool.hpp` | `init` modelled whole; not the AddOns, the options other than features, `packed`, `map_entry` |
| `dynamic_message/field_refs.hpp`, `message_fields.hpp`, `expected_message_mref.hpp` (access by name or number) | lookup by name and number, `set`, `get`, `to`, `modify`, chains and `adopt`; not messages that are set into themselves |
| `dynamic_message/*.hpp`, `src/dynamic_message/factory.cpp` | slot layout, factory (from bytes to files, message types and default values), field references, copy, reader, writer; memory of repeated numbers, enums, strings and bytes with `adopt` and `alias_from`; memory of nested messages with `clone_from` and `alias_from`; iterators; not visitation order beyond declaration order |
| `grpc/serialization.hpp` | modelled |
| `grpc/client.hpp` | callback calls, reactors of all kinds of methods, the blocking call, and the constructor of `Stub`; not metadata and write options other than `set_last_message` |
| `grpc/server.hpp` | `ServerRPC`, `BasicServerReactor` (callbacks one after the other), the buffers of `ServerRPC` and `RequestToken`, registration of the methods of services; not metadata, status texts |
| `src/protoc-plugin/cpp_lexical_emitter.cpp` | modelled; the range of floating types is a parameter |
| `src/protoc-plugin/hpp_generator.cpp` | default values, extension numbers, order and recursion of messages, name checks and the names of declarations, members and `pb_meta` of messages, structs of extensions, `is_valid` of enums, JSON metadata, options, the response with its headers, includes, descriptor sets and service methods; not the text of headers around them |

Further simplifications are stated at the definitions. The ones that matter most:
memory never runs out (allocation failure is not an outcome, except in the models of `optional_indirect` and `indirect`); moved-from objects
are not observed; the contents of a destination after an error are not claimed.

## Disagreements between the code and the properties

Each is a proved theorem with a concrete witness, named here, unless marked.

| id | what the code does | theorem |
|----|--------------------|---------|
| C03 | `uint32` varints longer than six bytes are refused; `sint32` values out of range are not truncated | `C03_uint32_overlong_refused`, `C03_sint32_not_truncated` |
| C06, C10, C36 | field numbers from 2^25 on do not survive: the reader ignores the fifth tag byte | `C06_five_byte_tags_fail`, `C10_large_number`, `C36_large_number` |
| C10 | −0.0 without presence is read back as 0.0 | `C10_negative_zero` |
| C11 | the 64-bit size wraps at 2^64 (aliasing views) | `C11_size_wraps` |
| C15 | `append_binpb` overwrites the start of the buffer | `C15_append_overwrites` |
| C18 | a closed enum in a oneof makes the reader throw | `C18_throws` |
| C19, C20 | an overlong tag of an unknown field corrupts the stored bytes | `C19_overlong_tag`, `C20_overlong_corrupted` |
| C24 | a map entry with its value before its key is refused | `C24_value_first_refused` |
| C27 | the storage of unknown fields must be declared last | `C27_storage_first` |
| C30 | three characters before a final `=` are not checked | `C30_malformed_accepted` |
| C33 | `-0` is accepted as hour, minute, second and fraction | `C33_minus_zero_accepted` |
| C35 | merging is not associative with messages in oneofs, nor neutral with required members | `C35_message_oneof`, `C35_required` |
| C38 | proxies of `optional<bool>` rebind on assignment and read true after reset | `C38_proxy_copy`, `C38_proxy_after_reset` |
| C39 | `reserve` below the size of a borrowed view leaves a view past its storage | `C39_reserve_overrun` |
| C43 | `set_to` ignores an empty value; a second `set_to` in the non-owning storage is merged | `C43_empty_wrong`, `C43_list_wrong` |
| C52 | `crbegin` and `crend` of `flat_map` are exchanged | `C52_const_reverse_runs_off` |
| C53 | the default sink mode is contiguous, not adaptive as documented, and overruns a small chunk | `C53_default_overruns` |
| C54 | the gRPC adapter emits one slice whatever the mode | `C54_single_slice` |
| C58 | defaults of bytes fields keep their C escapes | `C58_bytes_default_wrong` |
| C59 | views into padded input are not length-checked before validation | `C59_view_overrun` |
| C61 | clearing a field without presence keeps `value()`; clearing an inactive oneof member clears the active one | `C61_disagreement` |
| C62 | `clone_from` skips trailing fields after a oneof, makes absent numbers present | `C62_disagreement` |
| C63 | reading an absent enum of a oneof through the mutable reference writes | `C63_disagreement` |
| C64 | `resize` of repeated numbers leaves indeterminate elements | `C64_indeterminate` |
| C65 | the dynamic writer leaves unset required fields out, the generated one writes defaults | `C65_required_disagreement` |
| C66 | after `5` and then `0` on the wire a field without presence still reads 5; −0.0 and unknown fields are dropped | `C66_stale_value`, `C66_negative_zero`, `C66_unknown_dropped` |
| C67 | a map entry built without a key is written but cannot be read | `C67_incomplete_entry` |
| C68 | a callback call whose request cannot be written uses its reactor after deleting it | `C68_bad_request` |
| C69 | an RPC that streams both ways is finished twice when the client goes away during a write, or when a reply cannot be encoded | `C69_finished_twice`, `C69_bad_reply` |
| C74 | the pool ignores `[packed = false]` of proto3 files, applies `message_encoding = DELIMITED` to maps and gives singular proto3 extensions no presence | `C74_unpacked`, `C74_delimited_map`, `C74_extension` |
| C75 | two fields may share a JSON key, or one be named like the JSON name of another; the second is then read back as the first | `C75_collision`, `C75_shadowed` |
| C79 | `null` for a repeated `google.protobuf.Value` dereferences a null pointer | `C79_null`, `C79_disagreement` |
| C80 | `{"m":[{"b":[1}]}` is accepted: a repeated field need not be closed | `C80_unclosed`, `C80_disagreement` |
| C81 | a wrapper or `Value` that is present but unset is written as nothing (`{"limit":}`); a negative enum number without a name is written unsigned and not read back; a `NullValue` field is lost; a map entry without its message value is read through a null pointer | `C81_wrapper`, `C81_value`, `C81_enum`, `C81_null`, `C81_entry`, `C81_disagreement` |
| C82 | escaped keys are unknown; 64-bit integers must be quoted; `null` for one member of a oneof clears another; fields that the text leaves out keep their old values | `C82_escaped_key`, `C82_unquoted`, `C82_null_member`, `C82_keeps`, `C82_disagreement` |
| C83 | an extension declared outside of messages, whose type is part of a cycle, makes the generator follow a null `parent_message` | `C83_no_header` |
| C84 | a type is used before it is declared: another message of a cycle that is broken at a repeated field; a message nested in one that is declared ahead; a message by one that is nested in it | `C84_undeclared_repeated`, `C84_undeclared_nested`, `C84_undeclared_enclosing` |
| C85 | a struct contains itself: `optional` of its own type in proto3, a oneof member of its own type, a cycle broken at a repeated field that goes on elsewhere, a cycle through nested messages | `C85_infinite_optional`, `C85_infinite_oneof`, `C85_infinite_repeated`, `C85_infinite_nested` |
| C86 | `n = std::move(n->next)` reads `n->next` after the object it is in is destroyed; copying `n->next` to `n` does so too, if the allocator is propagated and differs | `C86_move_from_below`, `C86_copy_from_below` |
| C87 | `swap` with `propagate_on_container_swap` and different allocators exchanges the allocators but not the pointers | `C87_swap` |
| C89 | oneofs `a` and `a_` of a message both get the helpers `a_oneof_case` and `a_oneof_numbers` | `C89_oneofs` |
| C89 | a method `_methods` has the name of the list of methods | `C89_methods` |
| C89 | package `p.X_` is inside the namespace for what is nested in message `p.X`; package `p.class_` is the class of message `p.class`; package `p.pb_meta` is a function | `C89_package_in_message`, `C89_package_is_class`, `C89_package_is_function` |
| C89 | proto3 `optional string Name` is refused: its synthetic oneof `_Name`, never declared in C++, is a reserved name | `C89_optional_refused` |
| C90, C92 | a 64-bit integer in a oneof is written without quotes, which `read_json` refuses | `C90_wide`, `C90_disagreement` |
| C90 | a `google.protobuf.Value` that is not set is written as nothing: `{"extra":}` | `C90_value` |
| C91 | `null` for a member of a oneof clears the oneof although another member is set | `C91_null` |
| C91 | required strings are not checked to be UTF-8 | `C91_utf8` |
| C92 | an optional `Value` that is null is written `null` and is unset after reading | `C92_null`, `C92_disagreement` |
| C92 | a required enum without a name is written as a number, which is refused | `C92_enum` |
| C94 | `{"m":[{"b":[1}]}` is accepted | `C94_unclosed` |
| C95 | enum numbers 2^31 or more apart: the generator subtracts two `int` and overflows (with gcc the enum counts as continuous) | `C95_overflow` |
| C96 | `packed = false` is ignored where the feature says packed | `C96_unpacked` |
| C96 | maps in files with `DELIMITED` are groups | `C96_delimited_map` |
| C96 | a closed enum field required by `LEGACY_REQUIRED` is not validated | `C96_required_enum` |
| C96 | a required closed enum starts out as 0 although 0 is not one of its numbers; the default object is written and not read back | `C96_required_initial` |
| C97 | the scope `.M.a` reaches the field `M.ab` as well; an empty scope makes the generator throw | `C97_prefix` |
| C97 | a string field with default `abc` and without presence: `abc` is written as nothing and read back as the empty string | `C97_string_default` |
| C99 | a message without fields keeps unknown fields in memory and does not write them | `C99_dropped` |
| C101, C102 | a file with messages imports a file with enums or services only: its `.desc.hpp` includes a `.desc.hpp` that is never generated and names a descriptor that nothing declares | `C101_missing` |
| C105, C109 | a message inside the payload of an `Any` is written without braces (`opening_handled` is passed on): `{"@type":"/Note","child":"n":5}` | `C105_nested`, `C105_disagreement` |
| C105 | an `Any` with an `Int32Value` that is 0 is written as `{"@type":"/Int32Value","value":}` | `C105_zero` |
| C107 | an empty `Any` is written as `{}`, and `{}` is not read; that of a generated class is not written at all | `C107_empty`, `C107_generated`, `C107_disagreement` |
| C107 | `@type` is not checked to be UTF-8: a message is read that cannot be encoded | `C107_utf8` |
| C112 | a map entry with fewer than two fields is accepted by pool and factory (the comment in `dynamic_message/json.hpp` 290-291 says otherwise); reading and writing it access `fields()[1]`, which is undefined; the documentation (`factory.hpp` 48-52) asks for trusted, prevalidated descriptors | `C112_no_value` |
| C113 | the default value of a `bytes` field is the text in the descriptor with its escapes: `\\001` reads as four characters | `C113_bytes` |
| C116 | a map entry without its message value, read at the recursion limit, is given a default value one level too deep to be written with the same limit | `C116_same_limit_fails` |
| C116 | an unknown record with an overlong tag is kept without the first byte of its tag, so the object that was read is written as bytes that cannot be read | `C116_overlong_fails` |
| C119 | writing through a reference to an absent optional, or assigning an absent optional with another default, changes what it reads and compares as | `C119_write_absent`, `C119_other_default` |
| C119 | two absent optionals with default nan differ | `C119_nan_unequal` |
| C121 | after `alias_from`, fields of numbers share room for more elements: an append to one replaces an append to the other | `C121_append_lost` |
| C121 | clearing an alias and filling it again, even by `clone_from` the original, overwrites the original | `C121_alias_overwrites` |
| C122 | `push_back` reserves for one element: `n` appends allocate `n(n+1)/2` elements | `C122_quadratic` |
| C123 | setting an extension to its default value leaves the earlier value in the message | `C123_default_ignored`, `C123_default_lost` |
| C123 | the default of a string extension is cut at its first zero byte in new objects | `C123_string_default` |
| C125 | `m.clone_from(m)` erases the messages in `m`: a message field is emplaced, which resets it, before it is read | `C125_self_copy_erases` |
| C125 | `m.clone_from(part of m)` reads through a null pointer | `C125_part_over_whole` |
| C125 | `(part of m).clone_from(m)` never ends | `C125_whole_into_part` |
| C126 | after `alias_from` two messages share the messages in them | `C126_alias_shares` |
| C126 | what is set through a reference to an element from before the list grew is lost | `C126_stale_reference` |
| C127 | `pb_serializer::deserialize` into a copy of a non-owning message changes the original through a recursive field | `C127_merge_shared` |
| C128 | a string from padded input changes with the buffer (documented) | `C128_padded_aliases_input` |
| C128 | an unknown number of a closed enum in an extendable non-owning message leaves a view of a local array | `C128_unknown_enum_dangles` |
| C128 | an extendable message field that occurs twice, both times with extensions, is read through a null pointer | `C128_extension_twice_ub` |
| C129 | a server-streaming call whose request cannot be encoded reports the error by `OnDone`, and `start_call()` or `start_read()` then uses a null pointer | `C129_bad_request` |
| C130 | `get_response()` without a response reports OK and an empty message | `C130_nothing_received` |
| C132 | copying, comparing or reading an `indirect` that was moved from dereferences a null pointer; with unequal allocators so do move assignment from it and `swap` | `C132_moved_from`, `C132_moved_from_unequal` |
| C133 | `indirect::swap` with unequal allocators that propagate exchanges allocators and values but not memory, which is then freed with the wrong allocator | `C133_swap_propagates` |
| C134 | `indirect` copy assignment that propagates an unequal allocator destroys the old value before it allocates; `swap` is `noexcept` for propagating allocators although it may swap values | `C134_assign_loses`, `C134_swap_noexcept` |
| C135 | a string field takes an `enum_name` (it converts to `std::string_view`); `enum_numbers_span`, shown as an argument of `set` in its comment, is refused | `C135_enum_name_as_string`, `C135_enum_span` |
| C136 | setting a repeated enum from names, one of them unknown, or a repeated message field from messages, one of another type, fails after it replaced the old elements | `C136_disagreement`, `C136_names_prefix` |
| C137 | repeated strings, byte strings and messages can be set but not read with `field_value_by_name` | `C137_no_lists` |
| C138 | `field_mref::adopt(T v)` takes `v` by value: an adopted `std::string` or `std::vector` is a copy that is destroyed when the call returns | `C138_owner_dangles` |
| C140 | `*it = *jt` with iterators of repeated strings, bytes, enums and messages changes a temporary: `std::copy` does nothing, and erasing with `std::remove_if` keeps the wrong elements | `C140_proxies`, `C140_statement_false` |
| C141 | iterators point to the reference object they came from: they dangle when it is a temporary (also the message reference behind `fields()`), follow it when it is assigned to, and cannot be compared with iterators from a copy of it | `C141_reference_destroyed`, `C141_reference_assigned`, `C141_two_references`, `C141_fields_view` |
| C143 | all tokens of a stream point to the same buffer: a token that is kept until the next request arrives gives that one | `C143_late_token`, `C143_statement_false` |
| C144 | a character array is read up to its last element, not to the first zero: `char buf[100]` that holds JSON is refused, a pointer to it is read (`json.hpp` 535-541) | `C144_statement_false` |
| C146 | strings, bytes and enums without presence that are not set are printed as `null`, because the references to them are nullable to glaze; a cleared number is printed with its old value (`dynamic_message/json.hpp` 169-197, 701-713; `storage.hpp` 89-98) | `C146_string`, `C146_cleared`, `C146_statement_false` |
| C51 | holds at run time with the check compiled in; in constant evaluation strings that are not UTF-8 are read and written | `C155_differ` |
| C113 | a default text of a bool that is neither `true` nor `false` is accepted and means false | `C113_bool` |

Observations in the code that no theorem covers yet:
`default_value()` of a dynamic bytes field is the escaped text;
`field_mask` text is not converted between cases (C34 is stated without it).

## Axioms per theorem

Every theorem named in `MANIFEST.json`, as reported by `#print axioms`. No theorem depends on anything else
than the three axioms of Lean's library.

* `propext` only: `C101_missing`, `C101_missing`, `C102_variable`, `C104_paths`, `C113_bool`, `C113_bytes`, `C121_alias_overwrites`, `C121_append_kept`, `C121_append_lost`, `C123_no_extendee`, `C125_self_copy_erases`, `C126_alias_shares`, `C126_stale_reference`, `C127_merge_shared`, `C128_extension_once`, `C128_extension_twice_ub`, `C128_padded_aliases_input`, `C128_unknown_enum_dangles`, `C132_moved_from`, `C132_moved_from_unequal`, `C133_swap_propagates`, `C134_assign_loses`, `C134_noexcept_partial`, `C134_swap_noexcept`, `C135_enum_name_as_string`, `C135_enum_span`, `C136_disagreement`, `C136_failed_partial`, `C137_no_lists`, `C138_adopt_partial`, `C138_adopt_typed`, `C140_statement_false`, `C141_fields_view`, `C141_reference_assigned`, `C141_reference_destroyed`, `C141_statement_false`, `C147_first`, `C147_order`, `C151_unambiguous`, `C151_words`, `C153_calls`, `C153_compare`, `C155_asked`, `C156_not_checked`, `C156_required`, `C27_storage_first`, `C33_minus_zero_accepted`, `C58_bytes_default_wrong`, `C61_disagreement`, `C62_disagreement`, `C63_disagreement`, `C64_indeterminate`, `C74_unpacked`, `C86_equal`, `C89_methods`, `C89_oneofs`, `C89_optional_refused`, `C89_package_in_message`, `C89_package_is_class`, `C89_package_is_function`, `C95_overflow`, `viewOps_ok`.
* `propext, Quot.sound` only: `C03_sint32_not_truncated`, `C03_uint32_overlong_refused`, `C103_any_text`, `C103_options`, `C105_nested`, `C105_zero`, `C107_empty`, `C107_generated`, `C107_utf8`, `C108_url`, `C108_write`, `C10_large_number`, `C10_negative_zero`, `C112_no_value`, `C116_overlong_fails`, `C116_same_limit_fails`, `C119_default_partial`, `C119_nan_unequal`, `C119_presence`, `C11_size_wraps`, `C125_part_over_whole`, `C125_whole_into_part`, `C127_others`, `C127_values`, `C128_defined_partial`, `C130_nothing_received`, `C135_statement_false`, `C136_chain`, `C136_modify`, `C136_statement_false`, `C137_statement_false`, `C137_typed`, `C138_owner_dangles`, `C140_numbers_partial`, `C140_proxies`, `C141_two_references`, `C143_after_done`, `C144_refused`, `C144_text_partial`, `C145_option`, `C145_own`, `C145_restored`, `C146_cleared`, `C146_string`, `C150_forgets`, `C151_accepts`, `C151_value`, `C153_or_else_none`, `C154_exchange`, `C154_read`, `C154_read_packed`, `C154_written`, `C155_checked`, `C155_compiled`, `C155_differ`, `C155_dynamic_asked`, `C155_dynamic_read`, `C155_read`, `C156_compiles`, `C15_append_overwrites`, `C18_throws`, `C19_overlong_tag`, `C20_overlong_corrupted`, `C20_reemitted`, `C24_value_first_refused`, `C26_limit_monotone`, `C34_text`, `C35_message_oneof`, `C35_required`, `C36_large_number`, `C37_read_replaces`, `C38_optional_bool_partial`, `C38_proxy_after_reset`, `C38_proxy_copy`, `C39_reserve_overrun`, `C40_bounds`, `C42_unpack`, `C43_absent`, `C43_empty_wrong`, `C43_list_wrong`, `C44_printable`, `C45_comments`, `C45_printable`, `C46_distinct`, `C46_identifiers`, `C52_const_reverse_runs_off`, `C52_reverse_partial`, `C55_distinct`, `C55_qualified`, `C56_header_name`, `C56_include`, `C57_collisions`, `C57_component`, `C57_namespace`, `C61_statement_false`, `C62_statement_false`, `C63_statement_false`, `C65_required_disagreement`, `C66_negative_zero`, `C66_stale_value`, `C66_unknown_dropped`, `C67_incomplete_entry`, `C69_bad_reply`, `C69_finished_twice`, `C69_rules_partial`, `C74_delimited_map`, `C74_extension`, `C75_collision`, `C75_shadowed`, `C79_null`, `C80_unclosed`, `C81_entry`, `C81_enum`, `C81_null`, `C81_value`, `C81_wrapper`, `C82_keeps`, `C82_null_member`, `C82_unquoted`, `C83_no_header`, `C84_undeclared_enclosing`, `C84_undeclared_nested`, `C84_undeclared_repeated`, `C85_infinite_nested`, `C85_infinite_oneof`, `C85_infinite_optional`, `C85_infinite_repeated`, `C86_copy_from_below`, `C86_move_from_below`, `C87_copy_allocator`, `C89_global`, `C90_value`, `C90_wide`, `C91_null`, `C91_utf8`, `C92_enum`, `C92_null`, `C94_unclosed`, `C95_defined_partial`, `C96_delimited_map`, `C96_required_enum`, `C96_required_initial`, `C96_unpacked`, `C97_prefix`, `C97_string_default`, `C99_dropped`, `calendar`, `nodeOps_ok`, `readable_cell`.
* `propext, Classical.choice, Quot.sound`: all others (302 theorems). `Classical.choice` enters through
  the proof automation (`omega`, `simp`, `by_cases` on propositions), not through definitions: the model is computable.
