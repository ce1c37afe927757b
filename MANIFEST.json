{
 "claims": [
  {
   "property": "C01",
   "status": "partial",
   "theorems": [
    "C01_roundtrip_partial",
    "C01_negative_rejected",
    "C01_roundtrip_iff",
    "C01_violated",
    "C01_serialize_injective"
   ],
   "note": "Full statement is false for the code: durations with a negative day count are written but rejected on reading. Proved: exact condition for the round trip."
  },
  {
   "property": "C02",
   "status": "partial",
   "theorems": [
    "C02_parse_ok_iff",
    "C02_parse_error_iff",
    "C02_exact_partial",
    "C02_newline_accepted"
   ],
   "note": "Accepted language and value characterised exactly; the code additionally accepts one trailing newline and rejects numerals over 4300 digits."
  },
  {
   "property": "C03",
   "status": "proved",
   "theorems": [
    "C03_bytes_roundtrip",
    "C03_encode_injective"
   ],
   "note": ""
  },
  {
   "property": "C04",
   "status": "partial",
   "theorems": [
    "C04_decode_iff",
    "C04_decode_error_partial",
    "C04_excess_padding",
    "C04_decode_strict_partial",
    "C04_stray_rejected",
    "C04_encode_wellformed"
   ],
   "note": "base64.b64decode(validate=True) is modelled as the strict decoder of binascii in CPython 3.11, which skips superfluous padding behind complete groups. The claim that wrong padding is always an error is therefore false (C04_excess_padding); C04_decode_iff says exactly which texts are read."
  },
  {
   "property": "C05",
   "status": "partial",
   "theorems": [
    "C05_read_back",
    "C05_roundtrip_partial",
    "C05_fine_offset_lost",
    "C05_zulu_iff_utc",
    "C05_injective",
    "C05_parse_valid"
   ],
   "note": "The round trip holds for offsets that are zero or at least a second; a smaller offset is written but read as UTC by the datetime module in C (C05_read_back, C05_fine_offset_lost). Time zones are fixed UTC offsets; fold and tzinfo objects without offset are not modelled."
  },
  {
   "property": "C06",
   "status": "proved",
   "theorems": [
    "C06_serialize_iff_aware",
    "C06_parse_aware",
    "C06_naive_text_rejected"
   ],
   "note": ""
  },
  {
   "property": "C07",
   "status": "partial",
   "theorems": [
    "C07_date_roundtrip",
    "C07_naive_time_roundtrip",
    "C07_time_roundtrip_partial",
    "C07_fine_offset_lost",
    "C07_date_valid",
    "C07_time_valid"
   ],
   "note": "Dates and naive times in full; times with an offset if it is zero or at least a second (C07_fine_offset_lost otherwise)."
  },
  {
   "property": "C08",
   "status": "proved",
   "theorems": [
    "C08_canonical",
    "C08_roundtrip",
    "C08_injective",
    "C08_parse_range"
   ],
   "note": ""
  },
  {
   "property": "C09",
   "status": "proved",
   "theorems": [
    "C09_ipv4_roundtrip",
    "C09_ipv6_roundtrip",
    "C09_ipv4_injective",
    "C09_ipv4_range",
    "C09_ipv6_range"
   ],
   "note": "IPv6 addresses with and without scope id."
  },
  {
   "property": "C10",
   "status": "partial",
   "theorems": [
    "C10_kind_mismatch_partial",
    "C10_bool_as_number",
    "C10_identity",
    "C10_text",
    "C10_int_as_float_exact",
    "C10_int_as_float_nearest",
    "C10_int_as_float_overflow"
   ],
   "note": "The code accepts booleans for int and float (bool is a subclass of int): C10_bool_as_number. Every other mismatch of kinds is rejected."
  },
  {
   "property": "C11",
   "status": "partial",
   "theorems": [
    "C11_roundtrip_partial",
    "C11_roundtrip_static_partial",
    "C11_union_shadowed",
    "C11_none_becomes_default",
    "C11_none_field",
    "C11_namedtuple_none",
    "C11_namedtuple_alias",
    "C11_string_annotation_alias",
    "C11_optional_enum_fails"
   ],
   "note": "Proved for all values of all types of a syntactic class of invertible types (scalars, enumerations, literals, containers, recursive classes with aliases and optional fields, discriminated unions, unions whose members accept disjoint kinds of JSON). Offsets of date-times and times must be zero or at least a second (see C05, C07). The witnesses show where the code does not return the value written."
  },
  {
   "property": "C12",
   "status": "proved",
   "theorems": [
    "C12_type_safe",
    "C12_default_not_checked"
   ],
   "note": "For programs whose defaults and from_json hooks are well typed (Env.Typed); C12_default_not_checked shows that the assumption on defaults is needed, as the code never checks them."
  },
  {
   "property": "C13",
   "status": "partial",
   "theorems": [
    "C13_distinct",
    "C13_no_null_partial",
    "C13_complete",
    "C13_untyped_tuple_null",
    "C13_enum_null",
    "C13_collision_loses"
   ],
   "note": "Names are always distinct. The code does write null properties for None-valued attributes of an untyped namedtuple and for None-valued enumeration members, and loses a value when two fields share an alias (witness theorems)."
  },
  {
   "property": "C14",
   "status": "proved",
   "theorems": [
    "C14_static_dynamic",
    "C14_recursive_class"
   ],
   "note": "For types whose serializer can be created; C14_recursive_class shows that the static serializer of a directly recursive class cannot be created while dynamic serialization works."
  },
  {
   "property": "C15",
   "status": "proved",
   "theorems": [
    "C15_list",
    "C15_list_error",
    "C15_tuple",
    "C15_tuple_length",
    "C15_dict_str",
    "C15_dict_enum",
    "C15_set_ok",
    "C15_set_iff",
    "C15_set_members",
    "C15_wrong_kind"
   ],
   "note": "dict with str keys and with keys of a str-valued enumeration, the two kinds the code supports."
  },
  {
   "property": "C16",
   "status": "proved",
   "theorems": [
    "C16_success",
    "C16_missing",
    "C16_null",
    "C16_always_error"
   ],
   "note": "The error class is that of the first failing field in definition order; C16_missing and C16_null require earlier fields to be readable, C16_always_error does not."
  },
  {
   "property": "C17",
   "status": "proved",
   "theorems": [
    "C17_strict",
    "C17_class",
    "C17_skip"
   ],
   "note": ""
  },
  {
   "property": "C18",
   "status": "proved",
   "theorems": [
    "C18_no_influence",
    "C18_class"
   ],
   "note": "At every level of nesting."
  },
  {
   "property": "C19",
   "status": "proved",
   "theorems": [
    "C19_class",
    "C19_tagged",
    "C19_dict",
    "C19_dict_error",
    "C19_union_order_matters"
   ],
   "note": "Properties of the top-level object. If a dictionary cannot be read, the order can decide which error is raised (C19_dict_error). C19_union_order_matters shows that the claim would be false for untagged unions, which it does not cover."
  },
  {
   "property": "C20",
   "status": "proved",
   "theorems": [
    "C20_fields",
    "C20_present",
    "C20_absent",
    "C20_sufficient"
   ],
   "note": ""
  },
  {
   "property": "C21",
   "status": "partial",
   "theorems": [
    "C21_ok_iff",
    "C21_error_iff",
    "C21_first_match_partial",
    "C21_error_not_caught",
    "C21_first_match_quiet"
   ],
   "note": "The code catches only JsonKeyError and JsonTypeError of a member: any other error ends the search (C21_error_not_caught). The full statement holds when earlier members raise nothing else, in particular for member types of the listed kinds."
  },
  {
   "property": "C22",
   "status": "partial",
   "theorems": [
    "C22_selected",
    "C22_never_other",
    "C22_unknown_partial",
    "C22_unhashable",
    "C22_order_matters",
    "C22_alias_not_found",
    "C22_enum_tag"
   ],
   "note": "Selection by tag is proved; the code violates the rest of the statement for tags that are arrays or objects (TypeError), contradicting tags (order of the tag set matters), tags with an alias and tags that are enumeration members."
  },
  {
   "property": "C23",
   "status": "proved",
   "theorems": [
    "C23_ambiguous_iff",
    "C23_any_data"
   ],
   "note": ""
  },
  {
   "property": "C24",
   "status": "partial",
   "theorems": [
    "C24_mixed",
    "C24_accepts_iff_partial",
    "C24_rejects",
    "C24_bool_as_int"
   ],
   "note": "The code accepts True for Literal[1] (C24_bool_as_int)."
  },
  {
   "property": "C25",
   "status": "partial",
   "theorems": [
    "C25_lookup",
    "C25_unknown",
    "C25_roundtrip_partial",
    "C25_to_json_fails"
   ],
   "note": "Lookup is proved for all enumerations (equality is that of Python: True and 1.0 find a member with value 1; data that is NaN is excluded from C25_unknown). The round trip is false for enumerations with to_json (C25_to_json_fails) and proved for all others, except members whose value is NaN, which the code finds by object identity."
  },
  {
   "property": "C26",
   "status": "proved",
   "theorems": [
    "C26_alias_wins",
    "C26_underscore_iff_keyword",
    "C26_no_collision"
   ],
   "note": "Legal field names are names that are not keywords."
  },
  {
   "property": "C27",
   "status": "partial",
   "theorems": [
    "C27_agree_iff",
    "C27_same_name_partial",
    "C27_keyword_fails",
    "C27_tuple_alias_fails",
    "C27_string_alias_fails"
   ],
   "note": "The names agree exactly in the listed cases (iff, for all kinds of classes and fields); for classes with such fields proved on the observable behaviour of writer, reader and schema. The claim fails for names like from_ (the schema keeps the underscore), aliases in named tuples (not read), and aliases in string annotations of data classes (read but not written)."
  },
  {
   "property": "C28",
   "status": "partial",
   "theorems": [
    "C28_fresh",
    "C28_history_partial",
    "C28_options_ignored",
    "C28_earlier_options",
    "C28_violated",
    "C28_failed_build",
    "C28_options_leak",
    "C28_name_collision"
   ],
   "note": "The full statement is false for the code (C28_violated). Proved for every history, provided that the classes the type leads to can be deserialized and were not used with another option. After a call for a class, the options of later calls are ignored for all classes of all programs (C28_options_ignored), and those of earlier calls are used (C28_earlier_options). The witnesses show that options leak, that a failed build is remembered, and that classes of the same module and name are mixed up."
  },
  {
   "property": "C29",
   "status": "partial",
   "theorems": [
    "C29_same_error_partial",
    "C29_poisoned",
    "C29_violated"
   ],
   "note": "The full statement is false for the code: whenever building a class fails, later calls use the half-built deserializer for ever (C29_poisoned, for all classes). Proved: errors that are not raised while a class is built are repeated."
  },
  {
   "property": "C30",
   "status": "proved",
   "theorems": [
    "C30_topological_order"
   ],
   "note": ""
  },
  {
   "property": "C31",
   "status": "proved",
   "theorems": [
    "C31_raises_iff_cyclic",
    "C31_errors",
    "C31_terminates"
   ],
   "note": ""
  },
  {
   "property": "C32",
   "status": "partial",
   "theorems": [
    "C32_plain_partial",
    "C32_raises",
    "C32_dep_partial",
    "C32_root",
    "C32_violated"
   ],
   "note": "The full statement is false for the code (C32_violated): graph[new_type] = set() discards the members of every type that dependency_fn returns. Proved in full without dependency_fn, with the exact condition for RuntimeError; with dependency_fn, the order is right for every type that it does not return."
  },
  {
   "property": "C33",
   "status": "proved",
   "theorems": [
    "C33_referenced",
    "C33_terminates"
   ],
   "note": "For all environments whose annotations refer to defined classes. None is not counted and literals contain values, not types; string annotations are taken as resolved; classes of the standard library have no annotated members."
  },
  {
   "property": "C34",
   "status": "partial",
   "theorems": [
    "C34_validates_partial",
    "C34_generates",
    "C34_validate_object_partial",
    "C34_ipv4_fails",
    "C34_bare_list_fails",
    "C34_optional_fails",
    "C34_literal_fails",
    "C34_union_fails",
    "C34_union_text_fails",
    "C34_none_field_fails",
    "C34_to_json_fails",
    "C34_keyword_fails",
    "C34_bytes_length_fails",
    "C34_time_format_fails",
    "C34_pattern_fails",
    "C34_default_fails"
   ],
   "note": "For all programs, catalogs, types and values of the kind described in Spec/SchemaValid.lean (nested containers, dictionaries with enumeration keys, unions whose members are told apart by kind, value, property or tag, annotations, literals, enumerations, recursive registered classes) what object_to_json writes is valid for the generated schema, by an explicit semantics of JSON Schema (Spec/JsonSchema.lean; format, pattern and multiple-of tests are parameters); and a schema is generated. The claim fails for IP addresses, bare list/set/tuple, Optional other than of fields, literals with several values, ambiguous unions, fields of type None, classes with to_json, names like from_, lengths of bytes, times without offset, enumeration keys with regex characters, and naive date-times as defaults."
  },
  {
   "property": "C35",
   "status": "partial",
   "theorems": [
    "C35_refs_partial",
    "C35_reachable",
    "C35_resolves",
    "C35_loop_ends",
    "C35_no_recursion",
    "C35_inline_cycle_fails",
    "C35_string_fails",
    "C35_container_fails",
    "C35_forward_fails",
    "C35_annotated_fails",
    "C35_slash_fails"
   ],
   "note": "For all environments, catalogs and types: when references are recorded (no string annotations or unregistered forward references, no references in schemas given by the user) every $ref, also inside definitions, names an entry; every entry is reachable from the type; references with plain identifiers resolve; the definition loop always ends (no bound on the classes), and RecursionError occurs only if some class is expanded within itself (the converse is that such a class never has a schema). The claim fails for string annotations and list[\"B\"] (dangling), Optional[\"B\"] met first (NameError), an annotated registered recursive class (RecursionError) and identifiers with a slash."
  },
  {
   "property": "C36",
   "status": "partial",
   "theorems": [
    "C36_known",
    "C36_lookup",
    "C36_write_once",
    "C36_stable",
    "C36_by_name",
    "C36_identifier",
    "C36_forward",
    "C36_partial",
    "C36_violated"
   ],
   "note": "The full statement is false for the code (C36_violated): two types with the same short name share one identifier, and the later one takes over the name. Proved for all histories of registrations: known types, lookup by type, entries written once and stable, lookup by name gives the last type of that name. The full statement holds if no name is used for two types (C36_partial)."
  },
  {
   "property": "C37",
   "status": "partial",
   "theorems": [
    "C37_sound",
    "C37_complete",
    "C37_exact_partial",
    "C37_qualified",
    "C37_no_nested",
    "C37_required_iff",
    "C37_required_kept",
    "C37_required_props",
    "C37_required_props_once",
    "C37_nodup",
    "C37_idempotent",
    "C37_idempotent_exact",
    "C37_collision_fails",
    "C37_qualified_collision_fails",
    "C37_required_fails",
    "C37_empty_object_fails",
    "C37_required_props_fails",
    "C37_idempotent_fails"
   ],
   "note": "Exactness of the properties and exact idempotence need distinct names (proved for qualified names without dots); colliding names overwrite each other, members required by an optional nested object become required, and nested objects without properties vanish (witnesses). Required names are always properties after recursive flattening, and for consistent nested objects otherwise. Nodes that are not objects and copied members are opaque here; C61 is about whole documents."
  },
  {
   "property": "C38",
   "status": "partial",
   "theorems": [
    "C38_partial",
    "C38_wide_partial",
    "C38_violated"
   ],
   "note": "The full statement is false for the code (C38_violated): a format wins over the range, an empty enumeration raises ValueError, bounds beside an enumeration are ignored. Proved for a constant, an enumeration alone, and bounds without fixed-width format (C38_partial); every permitted value that fits 64 bits is in the type, also with bounds beside an enumeration (C38_wide_partial)."
  },
  {
   "property": "C39",
   "status": "partial",
   "theorems": [
    "C39_names",
    "C39_identity",
    "C39_exact",
    "C39_partial",
    "C39_violated"
   ],
   "note": "The full statement is false for the code (C39_violated): values whose safe names collide are dropped, and empty, mro or class-private names fail or vanish. Proved: safe names are legal; exact members for legal names even with collisions (C39_exact); the full statement if names are also different (C39_partial)."
  },
  {
   "property": "C40",
   "status": "proved",
   "theorems": [
    "C40_roundtrip",
    "C40_parsed_meta",
    "C40_reparse_partial",
    "C40_long_colon_fails",
    "C40_long_only_fails"
   ],
   "note": "All well-formed docstrings (any texts and number of entries). Well-formed: trimmed descriptions without tabs and without lines that start with a colon, the short one on one line, a long one only beside a short one, one-line entry texts, distinct names without white space and colons. Parsed metadata always satisfies its part; two witnesses show that parse_text can return descriptions that are not well-formed and do not survive."
  },
  {
   "property": "C41",
   "status": "partial",
   "theorems": [
    "C41_parse_error_iff",
    "C41_parse_partial",
    "C41_parse_total_fails",
    "C41_dataclass_iff",
    "C41_dataclass_nobase_iff",
    "C41_function_iff",
    "C41_inherited_fails",
    "C41_inherited_strict_fails"
   ],
   "note": "Parsing is not total: ValueError exactly if a metadata entry has no colon after its leading colons (iff proved, witness). The checks are proved exact; the data class check looks only at members that no base class has, so a documented inherited member is rejected (witness)."
  },
  {
   "property": "C42",
   "status": "partial",
   "theorems": [
    "C42_loose",
    "C42_complete",
    "C42_partial",
    "C42_violated"
   ],
   "note": "The full statement is false for the code (C42_violated): tuples are compared up to the shorter length, and Annotated and Literal types raise TypeError. Proved for all other types; with tuples, no value is rejected (C42_complete) and what is accepted is characterised exactly (C42_loose)."
  },
  {
   "property": "C43",
   "status": "partial",
   "theorems": [
    "C43_partial",
    "C43_type_pred_partial",
    "C43_value_pred_partial",
    "C43_refused",
    "C43_violated"
   ],
   "note": "The full statement is false for the code (C43_violated): items of a container given at the top and IP addresses are not tested, and annotated fields raise TypeError. Proved for well-typed objects, recursive classes included, whose fields have none of these types at any depth."
  },
  {
   "property": "C44",
   "status": "partial",
   "theorems": [
    "C44_optional",
    "C44_strict",
    "C44_union",
    "C44_unwrap",
    "C44_refused",
    "C44_rewrap",
    "C44_partial",
    "C44_violated"
   ],
   "note": "The full statement is false for the code in one clause (C44_violated): unwrap_union_types raises TypeError for an annotated union that is_type_union accepts. All other clauses are proved for all types."
  },
  {
   "property": "C45",
   "status": "partial",
   "theorems": [
    "C45_partial",
    "C45_violated"
   ],
   "note": "The full statement is false for the code (C45_violated): members of the source that are private to the name of the new enumeration are lost. Proved for all enumerations whose names are legal for members of the new enumeration."
  },
  {
   "property": "C46",
   "status": "proved",
   "theorems": [
    "C46_lossless",
    "C46_injective",
    "C46_compact",
    "C46_no_control",
    "C46_verbatim",
    "C46_raises_iff",
    "C46_file",
    "C46_file_lossless",
    "C46_file_line",
    "C46_literal_iff",
    "C46_no_floats"
   ],
   "note": "For all JSON values, reading with a model of json.loads. The text of finite floats is a parameter, assumed to be a JSON number with fraction or exponent that float() reads back; values without floats need no assumption. Integers of more than 4300 digits raise ValueError (C46_raises_iff). json_dump writes the same text and a line break, and the file reads back (C46_file, C46_file_lossless). C46_literal_iff says which texts the reader takes for a string, escapes and surrogate pairs included."
  },
  {
   "property": "C47",
   "status": "proved",
   "theorems": [
    "C47_bars",
    "C47_brackets",
    "C47_optional"
   ],
   "note": "For all type expressions without Annotated, with and without the union operator. Classes are known by their simple name. Without the union operator the text forgets whether None comes first or last in Optional[T] (the two are equal types in Python), and nothing else."
  },
  {
   "property": "C48",
   "status": "partial",
   "theorems": [
    "C48_ends_partial",
    "C48_diverges",
    "C48_depth",
    "C48_exact",
    "C48_violated",
    "C48_names_fail"
   ],
   "note": "The full statement is false for the code (C48_violated). Exact characterisation proved for all class environments: creation ends if no class leads back to itself outside of unions, and never returns a serializer otherwise. C48_exact says for exactly which types there is a serializer; C48_names_fail shows classes without recursion that have none because names in Annotated and key types are not looked up."
  },
  {
   "property": "C49",
   "status": "partial",
   "theorems": [
    "C49_partial",
    "C49_afterwards_partial",
    "C49_warm_partial",
    "C49_ends",
    "C49_race",
    "C49_violated"
   ],
   "note": "The full statement is false for the code (C49_race, C49_violated): a deserializer is stored before it is built, so another thread can fail with AttributeError. Proved for any number of threads and all interleavings: this is the only deviation (never a wrong value), every call ends under fair schedules, and after all calls ended the cache is undamaged. Calls use the same option; parse is one atomic step of the model."
  },
  {
   "property": "C50",
   "status": "partial",
   "theorems": [
    "C50_annotated",
    "C50_integer_range_partial",
    "C50_integer_precision",
    "C50_float_precision_partial",
    "C50_length",
    "C50_fixed_width_annotations",
    "C50_fixed_width_unbounded",
    "C50_last_range_wins",
    "C50_exact_length_ignored",
    "C50_multiple_not_exact"
   ],
   "note": "Exact for integer ranges, integer precision and minimum/maximum lengths, for all parameters and values. The claim fails elsewhere: the schemas of the fixed-width integers have only a format, no bounds (their annotations hold the exact range); the multipleOf of Precision with decimal digits is a float, so that 0.3 is not valid for Precision(2,1) under exact arithmetic (for float precision with d <= s the schema is characterised up to the multiple-of test of the validator, which is a parameter); of several ranges the last wins; Length is ignored."
  },
  {
   "property": "C51",
   "status": "proved",
   "theorems": [
    "C51_error_iff",
    "C51_types",
    "C51_default"
   ],
   "note": "For data classes and functions with any members, parameters and context; the lookup of inspect.getmodule and of the exception classes is the parameter context."
  },
  {
   "property": "C52",
   "status": "partial",
   "theorems": [
    "C52_to_json",
    "C52_to_json_enum",
    "C52_to_json_alone",
    "C52_from_json_partial",
    "C52_from_json_error_partial",
    "C52_named_tuple_fails"
   ],
   "note": "Writing is proved in full for all types, values and positions, including that fields of such classes have no influence. Reading is proved for classes other than named tuples; for named tuples from_json is ignored (witness)."
  },
  {
   "property": "C53",
   "status": "partial",
   "theorems": [
    "C53_partial",
    "C53_no_unions_partial",
    "C53_violated",
    "C53_integral_float",
    "C53_keyword_property",
    "C53_enum_collision",
    "C53_enum_in_union"
   ],
   "note": "For all schemas without clashing names or self-references, all types made from them whose unions are read dependably, and all data without integral floats in place of integers; for schemas without oneOf nothing is assumed of the made types but different names. In general the claim is false; there is a concrete witness for integral floats, properties named like a keyword with underscore, enumeration values with the same safe name, and enumerations in unions."
  },
  {
   "property": "C54",
   "status": "partial",
   "theorems": [
    "C54_reads_partial",
    "C54_reads_no_unions_partial",
    "C54_rebuilt_partial",
    "C54_read_back_partial",
    "C54_optional_default",
    "C54_violated",
    "C54_forward_reference",
    "C54_self_reference",
    "C54_registered",
    "C54_unknown_keyword"
   ],
   "note": "If a type is made, it reads what is written, under the conditions of C34 and C53; for schemas without oneOf there are no conditions on the made types apart from floats in place of integers. C54_rebuilt_partial: for classes made of plain types, enumerations, lists and data classes, registered or not, whose references respect the alphabetical order of definitions, the type is made, reads what is written and writes the same again; C54_read_back_partial: conversely, what is written for values of the made type is read by the class and written the same again. That a type is made fails in general; there are concrete witnesses for definitions that refer to later ones or to themselves, registered classes, and types whose schemas have other keywords."
  },
  {
   "property": "C55",
   "status": "partial",
   "theorems": [
    "C55_made_partial",
    "C55_not_made",
    "C55_violated",
    "C55_text_definition"
   ],
   "note": "C55_made_partial: a class with a field per property is made from closed documents whose definitions refer only to earlier ones and are of types whose module can be set (default values of enumerations left out). C55_not_made: no type is made from the described faulty documents, at any depth. The full statement is violated by definitions that refer to later ones and by definitions of plain types (witnesses)."
  },
  {
   "property": "C56",
   "status": "partial",
   "theorems": [
    "C56_valid_partial",
    "C56_returns_partial",
    "C56_validate_object_partial",
    "C56_violated",
    "C56_empty_tuple",
    "C56_member_values",
    "C56_precision",
    "C56_same_alias"
   ],
   "note": "Proved against a table of all keywords of the meta-schema, for programs whose tuples have items, whose powers of ten are not rounded to zero, whose enumerations used as keys make a regular expression and whose aliases differ in each class; the library check is assumed to accept what is valid. The full statement is violated in each of these four cases (witnesses)."
  },
  {
   "property": "C57",
   "status": "partial",
   "theorems": [
    "C57_same_partial",
    "C57_schemas",
    "C57_validates_partial",
    "C57_validate_iff_partial",
    "C57_validate_object_partial",
    "C57_valid_partial",
    "C57_class_text",
    "C57_definition_text",
    "C57_property_docs",
    "C57_property_text",
    "C57_switch_partial",
    "C57_unknown_parameter",
    "C57_violated",
    "C57_switch_violated"
   ],
   "note": "For documentation strings that can be read and user schemas that are valid: with and without text the same schema apart from text is returned, or the same error (C57_same_partial; C57_schemas without these conditions for the schemas before the check); if references are to definitions of the document, the same documents are valid (C57_validates_partial), so that C34 and C56 hold with default options (C57_validate_object_partial, C57_valid_partial). Where the text comes from: C57_class_text, C57_definition_text, C57_property_docs, C57_property_text. The full statement is violated by documentation of unknown parameters; use_descriptions=False does not switch off descriptions of properties (witnesses)."
  },
  {
   "property": "C58",
   "status": "partial",
   "theorems": [
    "C58_alias",
    "C58_integers",
    "C58_extra",
    "C58_plain",
    "C58_unambiguous_partial",
    "C58_visible_partial",
    "C58_violated",
    "C58_repeated_violated"
   ],
   "note": "C58_alias, C58_integers, C58_extra, C58_plain: what is written. C58_unambiguous_partial and C58_visible_partial: unambiguous if annotations are not equal to those of an auxiliary type for Python only, and if the annotations of an auxiliary type, when all are present, come first in their order and once. In full the statement is violated by other orders and by repeated annotations (witnesses)."
  },
  {
   "property": "C59",
   "status": "partial",
   "theorems": [
    "C59_simple",
    "C59_force",
    "C59_force_keeps",
    "C59_annotations",
    "C59_alias",
    "C59_unambiguous_partial",
    "C59_force_unambiguous_partial",
    "C59_violated"
   ],
   "note": "C59_simple and C59_force: for which types a name is returned, and TypeError otherwise. Unambiguous if class names have no two underscores in a row, do not end with one and are not names of auxiliary types, and without the empty tuple; in full the statement is violated (witnesses)."
  },
  {
   "property": "C60",
   "status": "proved",
   "theorems": [
    "C60_write_back",
    "C60_set_fails",
    "C60_datetime_fails",
    "C60_float_rounds",
    "C60_namedtuple_alias"
   ],
   "note": "C60_write_back: for all document types and classes of documents (recursive ones included). The other theorems are witnesses that the restriction to document types is needed."
  },
  {
   "property": "C61",
   "status": "proved",
   "theorems": [
    "C61_succeeds_iff",
    "C61_tree",
    "C61_keywords",
    "C61_sound",
    "C61_complete",
    "C61_flat",
    "C61_required_iff",
    "C61_again",
    "C61_idempotent",
    "C61_idempotent_qualified",
    "C61_example",
    "C61_rejected_fails",
    "C61_overflow_fails"
   ],
   "note": "For documents without repeated keys. C61_tree: the tree of the result says what flattening (C37) the tree of the document gives; the other theorems spell this out. C61_rejected_fails and C61_overflow_fails: schemas that cannot be read, some of which the library generates."
  },
  {
   "property": "C62",
   "status": "partial",
   "theorems": [
    "C62_valid_is_read_partial",
    "C62_float_for_int_fails",
    "C62_bytes_fails",
    "C62_ipv4_fails",
    "C62_format_fails",
    "C62_huge_fails",
    "C62_int_keys_fails",
    "C62_set_of_lists_fails",
    "C62_no_fields_fails",
    "C62_keyword_fails",
    "C62_none_field_fails",
    "C62_named_tuple_fails",
    "C62_named_tuple_alias_fails",
    "C62_union_fails",
    "C62_pattern_fails",
    "C62_from_json_fails"
   ],
   "note": "For programs, types and data described in Spec/SchemaRead.lean (Dependable, ClassReads), if integers are in the range of floats, no float with an integer as value is given for an integer, and the format checker of the validator accepts only texts that can be read. In full the statement is violated: the theorems C62_*_fails are the witnesses."
  },
  {
   "property": "C63",
   "status": "partial",
   "theorems": [
    "C63_tests",
    "C63_named_tuple",
    "C63_exclusive",
    "C63_items",
    "C63_items_meaning",
    "C63_members_meaning",
    "C63_dict",
    "C63_literal",
    "C63_property",
    "C63_field",
    "C63_named_tuple_fails",
    "C63_unchecked",
    "C63_bare",
    "C63_default_fails"
   ],
   "note": "Violated in two points (C63_named_tuple_fails: an annotated named tuple is not recognised; C63_default_fails: a field looked up by name has lost its default); all else is proved. C63_unchecked and C63_bare: what the helpers do with types that they are not meant for."
  },
  {
   "property": "C64",
   "status": "partial",
   "theorems": [
    "C64_new_reads_old_partial",
    "C64_old_reads_new_partial",
    "C64_stored_partial",
    "C64_sent_partial",
    "C64_union_fails",
    "C64_literal_fails",
    "C64_skipped_fails",
    "C64_named_tuple_fails"
   ],
   "note": "For all types but unions of classes that are not told apart by a tag, and sets with classes inside; classes without from_json; new fields not of a literal type; defaults without instances of classes. C64_stored and C64_sent join this with the round trip C11. C64_*_fails: witnesses that the exceptions are needed."
  },
  {
   "property": "C65",
   "status": "partial",
   "theorems": [
    "C65_meaning_partial",
    "C65_catalog_partial",
    "C65_same_name_fails"
   ],
   "note": "For programs without string annotations, with forward references to registered types only, with distinct property names in a class, and for catalogs without schemas given by the user, with one type per name, and names without the characters / ~ %; definitions_path as by default. JSON values without repeated keys. C65_same_name_fails: witness that the same name for two types breaks it (the other exceptions are witnessed under C35)."
  },
  {
   "property": "C66",
   "status": "partial",
   "theorems": [
    "C66_stays_valid_partial",
    "C66_was_valid_partial",
    "C66_tagged_exclude",
    "C66_default_fails",
    "C66_new_property_fails",
    "C66_union_fails",
    "C66_no_fields_fails"
   ],
   "note": "For programs as in C65, new fields of optional types, classes that have fields, and unions no value of which is of two of the types (C66_tagged_exclude: so for classes told apart by a tag). C66_*_fails: witnesses that these conditions are needed."
  },
  {
   "property": "C67",
   "status": "partial",
   "theorems": [
    "C67_classes",
    "C67_functions",
    "C67_once_partial",
    "C67_alias_fails",
    "C67_exceptions",
    "C67_imported_fails",
    "C67_raises",
    "C67_raises_unknown",
    "C67_shadow_fails",
    "C67_create",
    "C67_has_docstring",
    "C67_no_docstring",
    "C67_full",
    "C67_full_read_partial",
    "C67_long_only_fails"
   ],
   "note": "Exact for the members of modules, exceptions in documentation, new modules and the presence of documentation. Each once: only for objects that one attribute has as value (C67_alias_fails). Reading back the full description: for descriptions that can be written (as in C40). C67_*_fails: witnesses for aliases, imported exceptions, names that hide built-in exceptions, long descriptions alone."
  },
  {
   "property": "C68",
   "status": "partial",
   "theorems": [
    "C68_sound",
    "C68_occurs",
    "C68_exact",
    "C68_fresh",
    "C68_documented_partial",
    "C68_creation",
    "C68_undocumented",
    "C68_violated"
   ],
   "note": "False as documented (C68_violated; C68_undocumented lists ValueError, JsonValueError, OverflowError and TypeError for data that does not fit). Exact for types without unions: C68_sound gives the exceptions of each type (unions included), C68_occurs that each of them is raised. C68_documented_partial: only the documented exceptions for types made of bool, int, str, None, lists, dictionaries with text keys, literals that are no enumeration members, unions without tag and classes without required fields. JsonTypeError also when a deserializer cannot be created (C68_creation)."
  },
  {
   "property": "C69",
   "status": "partial",
   "theorems": [
    "C69_restored_partial",
    "C69_stored_partial",
    "C69_injective_partial",
    "C69_lines_partial",
    "C69_numbers",
    "C69_long_integer_fails"
   ],
   "note": "For the types and values of C11, integers of at most 4300 digits (C69_long_integer_fails), and floats whose text is read back as the same float (a fact about the runtime, only assumed for floats that occur; C69_numbers: those of the value)."
  },
  {
   "property": "C70",
   "status": "partial",
   "theorems": [
    "C70_exists",
    "C70_document_partial",
    "C70_definitions_partial",
    "C70_not_within_itself",
    "C70_more_registered",
    "C70_optional_item_fails",
    "C70_literals_fail",
    "C70_mixed_enum_fails"
   ],
   "note": "C70_exists is exact for all programs, catalogs and types. Documents and definitions: for programs whose annotations are evaluated and catalogs with unique identifiers; with names of classes in annotations the first use of a name decides. Outside the model: literals that are members of enumerations, keys that are members of enumerations with float values."
  },
  {
   "property": "C71",
   "status": "partial",
   "theorems": [
    "C71_writes_partial",
    "C71_raises",
    "C71_writable_partial",
    "C71_key_order_fails"
   ],
   "note": "Exact for everything the model covers; left out are objects that do not fit the type (see C81), and keys that are members of enumerations with values other than strings. C71_writable_partial is for objects with the attributes that their classes declare (Sound). C71_key_order_fails: order of dictionary entries matters."
  },
  {
   "property": "C72",
   "status": "partial",
   "theorems": [
    "C72_hints",
    "C72_same_names",
    "C72_once_partial",
    "C72_single_partial",
    "C72_covers",
    "C72_slice",
    "C72_reads_base_partial",
    "C72_diamond_fails",
    "C72_undecorated_fails",
    "C72_list_loses"
   ],
   "note": "Names agree for all programs. Types agree if no name is annotated in two classes, or with single inheritance where classes with annotations have the decorator; otherwise they may differ (C72_diamond_fails, C72_undecorated_fails). Reading back as the base class: for the types and values of C11."
  },
  {
   "property": "C73",
   "status": "partial",
   "theorems": [
    "C73_reads",
    "C73_reads_strict",
    "C73_json_to_object",
    "C73_writes",
    "C73_schema_partial",
    "C73_schema_strict_partial",
    "C73_schema_others",
    "C73_document",
    "C73_integer_fails",
    "C73_strict_object_fails",
    "C73_no_context_fails",
    "C73_placeholder_fails"
   ],
   "note": "Reading and writing are proved for all JSON values. The schemas accept exactly the values without whole numbers (C73_schema_partial), which contradicts the claim; JsonObject and JsonArray cannot be read (C73_placeholder_fails); StrictJsonType cannot be read with json_to_object (C73_strict_object_fails)."
  },
  {
   "property": "C74",
   "status": "partial",
   "theorems": [
    "C74_reads_partial",
    "C74_stored_partial",
    "C74_before_fails",
    "C74_float_fails",
    "C74_inner_fails"
   ],
   "note": "For the widenings of the inductive relation Relaxed: any new alternative that follows the old type or accepts other kinds of JSON values, literals, enumerations with appended members, tagged unions with more classes, containers, defaults. Widening that lets an earlier alternative of an untagged union accept more changes what is read (witnesses *_fails), so the claim holds only for these."
  },
  {
   "property": "C75",
   "status": "partial",
   "theorems": [
    "C75_created",
    "C75_outcome_partial",
    "C75_value_partial",
    "C75_enum_fails",
    "C75_object_fails",
    "C75_nested_fails",
    "C75_name_fails",
    "C75_error_fails"
   ],
   "note": "Creation of deserializers is proved for all types. With at most one tag per union the outcome, including errors, is the same; with several tags the value is the same if the tags have their own name in JSON, no enumeration members as values, and the union is not inside a union without tag. The code violates the claim in each of the other cases (witnesses *_fails)."
  },
  {
   "property": "C76",
   "status": "partial",
   "theorems": [
    "C76_written_partial",
    "C76_typed_partial",
    "C76_tidy",
    "C76_eq",
    "C76_datetime_fails",
    "C76_time_fails",
    "C76_set_fails",
    "C76_tuple_fails",
    "C76_mixed_fails",
    "C76_clash_fails"
   ],
   "note": "Proved for equality other than across UTC offsets, orders of iteration of sets and kinds of tuples, and dictionaries whose keys are all strings, all integers or all members of one enumeration. The code violates the claim in each of the other cases (witnesses *_fails)."
  },
  {
   "property": "C77",
   "status": "proved",
   "theorems": [
    "C77_exists",
    "C77_suffices",
    "C77_errors",
    "C77_written_fails",
    "C77_recursive_fails",
    "C77_after_failure_fails"
   ],
   "note": "As stated, for programs whose annotations refer to existing classes and enumerations and whose literal types have values (Env.Complete). The *_fails theorems show where serializers, and the state after a failed creation, differ."
  },
  {
   "property": "C78",
   "status": "proved",
   "theorems": [
    "C78_option",
    "C78_local",
    "C78_first",
    "C78_unknown",
    "C78_mixed"
   ],
   "note": "As stated, for programs whose annotations refer to existing classes (Env.Complete) and histories of calls for types with deserializers; after a failed creation see C29_poisoned. C78_mixed is an instance in which one call reads inner and outer objects with different options."
  },
  {
   "property": "C79",
   "status": "partial",
   "theorems": [
    "C79_read_is_valid_partial",
    "C79_liberties_partial",
    "C79_same_data_partial",
    "C79_exact_partial",
    "C79_bool_fails",
    "C79_range_fails",
    "C79_twice_fails",
    "C79_null_fails",
    "C79_default_fails",
    "C79_format_fails",
    "C79_union_fails",
    "C79_ipv4_fails",
    "C79_unknown_fails",
    "C79_keyword_fails"
   ],
   "note": "For the types in Mirrored and the classes in ClassMirrored. The claim is false without the exceptions; each liberty and each excluded kind of type other than from_json classes, optional fields of named tuples, literals of enumeration members and enumerations of many keys has a witness. That exactly the liberties are refused is shown for types without unions (C79_liberties_partial), and with unions for types of the kind of C62 (C79_exact_partial)."
  },
  {
   "property": "C80",
   "status": "partial",
   "theorems": [
    "C80_reader",
    "C80_writer_partial",
    "C80_writer_iff",
    "C80_fields_partial",
    "C80_one_module_partial",
    "C80_typ_fails",
    "C80_module_fails",
    "C80_inherited_fails",
    "C80_inherited_name_fails",
    "C80_twice_fails",
    "C80_none_fails",
    "C80_annotated_fails",
    "C80_key_fails",
    "C80_hidden_fails",
    "C80_nested_fails"
   ],
   "note": "The reader is shown to find the type that is meant without conditions on names. For the writer the names must stand for the same in the module of the class that is written, and all texts must be seen (Seen); in such names, Seen is also necessary (C80_writer_iff); each condition has a witness. Classes with one base class at most, and without type parameters."
  },
  {
   "property": "C81",
   "status": "partial",
   "theorems": [
    "C81_settled",
    "C81_exact_partial",
    "C81_raises",
    "C81_agrees",
    "C81_json_partial",
    "C81_scalar_fails",
    "C81_none_fails",
    "C81_literal_fails",
    "C81_tuple_fails",
    "C81_text_fails",
    "C81_class_fails",
    "C81_date_fails",
    "C81_key_fails",
    "C81_json_fails"
   ],
   "note": "Types are not tested by the code, so the claim is false as stated; C81_exact_partial gives the exact condition, C81_json_partial a sufficient one for the result to be JSON. Outside lists what is not modelled, C81_settled shows that nothing else is."
  },
  {
   "property": "C82",
   "status": "partial",
   "theorems": [
    "C82_reads_partial",
    "C82_total_partial",
    "C82_created",
    "C82_made",
    "C82_history",
    "C82_plain",
    "C82_context_fails",
    "C82_object_fails",
    "C82_annotated_fails",
    "C82_typ_fails",
    "C82_expression_fails",
    "C82_loop_fails",
    "C82_tags_fails",
    "C82_error_fails"
   ],
   "note": "Holds if names are variables of the context, not directly within Annotated, and unions of names have no tags; names must not lead back to themselves by unions only. The other cases are violated, with witnesses."
  },
  {
   "property": "C83",
   "status": "partial",
   "theorems": [
    "C83_text_partial",
    "C83_kept_partial",
    "C83_unambiguous_partial",
    "C83_function",
    "C83_context_fails",
    "C83_typ_fails",
    "C83_recursive_fails",
    "C83_transform_fails"
   ],
   "note": "Every text is that of the type with some names replaced by what they stand for; for names of the context there is always a text, with the names kept. Left out are names of None, names directly within Annotated, and Annotated with type_transform. Classes are known by their simple names."
  },
  {
   "property": "C84",
   "status": "partial",
   "theorems": [
    "C84_collected_partial",
    "C84_sorted_partial",
    "C84_module",
    "C84_context_fails",
    "C84_inherited_fails",
    "C84_inherited_name_fails",
    "C84_none_fails",
    "C84_module_fails",
    "C84_typ_fails",
    "C84_recursive_fails"
   ],
   "note": "Holds if the annotations have a meaning, without None in place of a type, and names in inherited members stand for the same in the module of the derived class. The other cases are violated, with witnesses."
  },
  {
   "property": "C85",
   "status": "partial",
   "theorems": [
    "C85_partial",
    "C85_loose",
    "C85_complete",
    "C85_quotes",
    "C85_typeLike",
    "C85_typeLike_meaning",
    "C85_context_fails",
    "C85_hidden_fails",
    "C85_generic_fails",
    "C85_variable_fails",
    "C85_none_fails",
    "C85_text_fails",
    "C85_forms_fail",
    "C85_order_fails",
    "C85_bare_fails"
   ],
   "note": "Holds for names that the library knows and that stand for classes, without texts in list etc., unions with |, Annotated, Literal and tuples of fixed length. The other cases are violated, with witnesses; is_type_like turns down texts and nothing else that means a type."
  },
  {
   "property": "C86",
   "status": "partial",
   "theorems": [
    "C86_kept_partial",
    "C86_attributes_partial",
    "C86_found_partial",
    "C86_violated",
    "C86_import_fails",
    "C86_library_fails",
    "C86_choice_fails",
    "C86_joined_fails"
   ],
   "note": "For all documents, provided that no attribute of the module is a class of another module and no definition has the format uuid, ipv4 or ipv6: nothing that exists is changed, and attributes are set only under names for the types made. A type is found under its name unless another one was made with the same name, or a definition of something other than an object has the name. The excluded cases are violated, with witnesses."
  },
  {
   "property": "C87",
   "status": "partial",
   "theorems": [
    "C87_types",
    "C87_errors",
    "C87_any_module_partial",
    "C87_violated",
    "C87_stale_fails",
    "C87_missing_fails"
   ],
   "note": "For all documents and all pairs of modules that agree on the names the document leaves to the module (references that are not to earlier definitions): the same type, classes, enumerations and errors. Hence for all modules if there are no such names. References to definitions that follow are resolved to old attributes, with a witness."
  },
  {
   "property": "C88",
   "status": "partial",
   "theorems": [
    "C88_results",
    "C88_kept_partial",
    "C88_flat_partial",
    "C88_words_partial",
    "C88_first_failure",
    "C88_violated",
    "C88_replaced_fails",
    "C88_property_fails",
    "C88_default_fails"
   ],
   "note": "For all documents (with the provisos of C86): a failed call leaves behind only types of the module with names for the document, and changes nothing else; documents without definitions and without objects and enumerations among the properties leave nothing behind, nor do documents with keywords other than those of documents. Definitions after the first that fails have no influence (C88_first_failure). Others leave types behind, and may replace classes, with witnesses."
  },
  {
   "property": "C89",
   "status": "partial",
   "theorems": [
    "C89_accepted_iff",
    "C89_errors",
    "C89_made",
    "C89_wellformed_partial",
    "C89_serializers",
    "C89_roundtrip_partial",
    "C89_history_partial",
    "C89_same_name",
    "C89_violated",
    "C89_same_name_fails"
   ],
   "note": "For all series of declarations (without names of fields that start with two underscores): accepted exactly if names are allowed, with the error of the first that is not, and classes with exactly the given fields. For classes with different names: round trip (with the conditions of C11) and no influence of earlier reads. Classes with the same name are read in the same way as soon as one has been used, for all series of declarations (C89_same_name), with a witness that this is wrong."
  }
 ]
}