{"id": "C01", "title": "Durations survive a JSON round trip", "statement": "For every datetime.timedelta d, json_to_object(timedelta, object_to_json(d)) returns a timedelta equal to d.", "quantifier": "all timedelta values (days, seconds, microseconds in Python's normalised ranges)", "why_tests_cant": "There are about 8.6e22 timedelta values; tests sample nine of them, none negative.", "anchors": ["strong_typing/serializer.py:TimeDeltaSerializer.generate", "strong_typing/serializer.py:TimeDeltaSerializer.iso8601_time_duration", "strong_typing/deserializer.py:TimeDeltaDeserializer.parse"]}
{"id": "C02", "title": "Duration parsing is exact and never rounds", "statement": "json_to_object(timedelta, s) succeeds exactly for strings of the documented grammar P[nW][nD][T[nH][nM][n[.f]S]] whose fraction is a whole number of microseconds, and the result is exactly the sum of the components; every other string raises JsonValueError (or OverflowError beyond timedelta.max), never a truncated value.", "quantifier": "all strings", "why_tests_cant": "The set of strings is infinite; the claim is an equality of an accepted language and a value function.", "anchors": ["strong_typing/deserializer.py:TimeDeltaDeserializer.parse"]}
{"id": "C03", "title": "Byte strings survive a JSON round trip", "statement": "For every bytes object b, json_to_object(bytes, object_to_json(b)) == b.", "quantifier": "all byte strings of any length", "why_tests_cant": "Unbounded length; three length classes modulo 3 interact with padding.", "anchors": ["strong_typing/serializer.py:BytesSerializer.generate", "strong_typing/deserializer.py:BytesDeserializer.parse"]}
{"id": "C04", "title": "Base64 text is well formed on output and strictly checked on input", "statement": "object_to_json(b) for bytes yields only Base64 alphabet characters with correct padding and length 4*ceil(n/3); json_to_object(bytes, s) never ignores a character: it fails with an error whenever s contains a character outside the alphabet or has wrong padding.", "quantifier": "all byte strings and all input strings", "why_tests_cant": "Universally quantified over all strings, including every position of a stray character.", "anchors": ["strong_typing/serializer.py:BytesSerializer.generate", "strong_typing/deserializer.py:BytesDeserializer.parse"]}
{"id": "C05", "title": "Time-zone aware timestamps survive a JSON round trip", "statement": "For every datetime with a time zone offset, json_to_object(datetime, object_to_json(t)) has the same wall-clock fields and UTC offset as t; UTC timestamps are written with the suffix Z and no other timestamp is.", "quantifier": "all valid dates, times, microseconds and UTC offsets", "why_tests_cant": "About 3e17 local times times 1.7e11 offsets; the suffix rewriting must never hit a non-UTC offset.", "anchors": ["strong_typing/serializer.py:DateTimeSerializer.generate", "strong_typing/deserializer.py:DateTimeDeserializer.parse"]}
{"id": "C06", "title": "Naive timestamps are rejected in both directions", "statement": "object_to_json raises JsonValueError for every datetime without time zone, and json_to_object(datetime, s) never returns a datetime without time zone.", "quantifier": "all naive datetimes and all input strings", "why_tests_cant": "Safety property over all strings.", "anchors": ["strong_typing/serializer.py:DateTimeSerializer.generate", "strong_typing/deserializer.py:DateTimeDeserializer.parse"]}
{"id": "C07", "title": "Dates and times of day survive a JSON round trip", "statement": "For every date d and every time of day t (naive or with offset, with or without microseconds), deserializing the serialized form gives back d, respectively t.", "quantifier": "all valid dates and times", "why_tests_cant": "Domain too large to enumerate; digit padding boundaries.", "anchors": ["strong_typing/serializer.py:DateSerializer.generate", "strong_typing/serializer.py:TimeSerializer.generate", "strong_typing/deserializer.py:DateDeserializer.parse", "strong_typing/deserializer.py:TimeDeserializer.parse"]}
{"id": "C08", "title": "UUIDs survive a JSON round trip in canonical form", "statement": "For every UUID u, object_to_json(u) is the canonical 8-4-4-4-12 lower-case hexadecimal string and json_to_object(UUID, object_to_json(u)) == u; distinct UUIDs give distinct strings.", "quantifier": "all 2^128 UUIDs", "why_tests_cant": "2^128 values.", "anchors": ["strong_typing/serializer.py:UUIDSerializer.generate", "strong_typing/deserializer.py:UUIDDeserializer.parse"]}
{"id": "C09", "title": "IP addresses survive a JSON round trip", "statement": "For every IPv4Address and IPv6Address a, json_to_object(type(a), object_to_json(a)) == a.", "quantifier": "all 2^32 and 2^128 addresses", "why_tests_cant": "Zero-run compression of IPv6 has many interacting cases over 2^128 addresses.", "anchors": ["strong_typing/serializer.py:IPv4Serializer.generate", "strong_typing/serializer.py:IPv6Serializer.generate", "strong_typing/deserializer.py:IPv4Deserializer.parse", "strong_typing/deserializer.py:IPv6Deserializer.parse"]}
{"id": "C10", "title": "Scalar types accept exactly the matching JSON kinds", "statement": "json_to_object for None, bool, int, float, str, bytes, datetime, date, time, timedelta, UUID and IP address types raises JsonTypeError for every JSON value of a kind the documentation does not map to the type, and returns the JSON value itself for None, bool, int, float and str when the kind matches.", "quantifier": "all scalar types and all JSON values", "why_tests_cant": "Infinite set of JSON values per type; kind confusion such as bool/int is easy to miss.", "anchors": ["strong_typing/deserializer.py:NoneDeserializer.parse", "strong_typing/deserializer.py:BoolDeserializer.parse", "strong_typing/deserializer.py:IntDeserializer.parse", "strong_typing/deserializer.py:FloatDeserializer.parse", "strong_typing/deserializer.py:StringDeserializer.parse"]}
{"id": "C11", "title": "Serialize then deserialize is the identity on typed data", "statement": "For every supported type T (scalars, list, dict, set, tuple, Optional, Union, Literal, Annotated, enumerations, data classes, typed classes and named tuples, arbitrarily nested and mutually recursive) and every value v of type T, json_to_object(T, serialize(v)) == v.", "quantifier": "all class environments, all types, all values of the type, any nesting depth", "why_tests_cant": "Unbounded type and value depth; interaction of features (None omission, defaults, unions, aliases).", "anchors": ["strong_typing/serializer.py:create_serializer", "strong_typing/serializer.py:object_to_json", "strong_typing/deserializer.py:create_deserializer", "strong_typing/serialization.py:json_to_object"]}
{"id": "C12", "title": "Deserialization only returns values of the requested type", "statement": "Whenever json_to_object(T, data) returns normally, the result is an instance of T at every level: list items, dict keys and values, set members, tuple items, union members, literal values, enumeration members and class fields all have their declared types.", "quantifier": "all class environments, all types, all JSON values", "why_tests_cant": "Must hold for every malformed or adversarial JSON document of any depth.", "anchors": ["strong_typing/deserializer.py:Deserializer.parse", "strong_typing/serialization.py:json_to_object"]}
{"id": "C13", "title": "Serialization output is plain JSON without spurious nulls", "statement": "For every well-typed object, object_to_json returns a JSON value in which no property of a serialized class object is null and every JSON object has distinct property names.", "quantifier": "all class environments and values", "why_tests_cant": "Unbounded nesting; property-name collisions depend on the class definition.", "anchors": ["strong_typing/serializer.py:FieldSerializer.generate_field", "strong_typing/serializer.py:TypedClassSerializer.generate", "strong_typing/serializer.py:object_to_json"]}
{"id": "C14", "title": "Static and dynamic serialization agree", "statement": "For every value v of declared type T, the serializer created for T and object_to_json(v), which only sees the runtime type, produce the same JSON.", "quantifier": "all types and values of that type", "why_tests_cant": "Two independent dispatch paths must agree on infinitely many nested types.", "anchors": ["strong_typing/serializer.py:_create_serializer", "strong_typing/serializer.py:UnionSerializer.generate", "strong_typing/serializer.py:UntypedListSerializer.generate", "strong_typing/serializer.py:UntypedDictSerializer.generate", "strong_typing/serializer.py:object_to_json"]}
{"id": "C15", "title": "Containers are converted element by element and never lose or invent elements", "statement": "json_to_object(list[T], a) succeeds iff every item parses as T, and then has the same length and order; dict[K,V] keeps exactly the keys; tuple[T1..Tn] succeeds iff the array has exactly n items that parse at their positions; set[T] contains exactly the parsed items.", "quantifier": "all element types and arrays or objects of any length", "why_tests_cant": "Unbounded length; off-by-one and zip-truncation errors are only visible at particular lengths.", "anchors": ["strong_typing/deserializer.py:ListDeserializer.parse", "strong_typing/deserializer.py:DictDeserializer.parse", "strong_typing/deserializer.py:TupleDeserializer.parse", "strong_typing/deserializer.py:SetDeserializer.parse"]}
{"id": "C16", "title": "Missing or null required properties are always reported", "statement": "Deserializing a data class or typed class from a JSON object in which a required property (no default, not optional) is absent raises JsonKeyError, and raises JsonValueError if it is present but null; success implies every required property was present and non-null.", "quantifier": "all class definitions and all JSON objects", "why_tests_cant": "Any subset of properties may be missing in any combination.", "anchors": ["strong_typing/deserializer.py:RequiredFieldDeserializer.parse_field", "strong_typing/deserializer.py:ClassDeserializer.parse", "strong_typing/deserializer.py:DataclassDeserializer.build"]}
{"id": "C17", "title": "Unknown properties are rejected unless skip_unassigned is set", "statement": "With default options, if json_to_object(C, data) returns normally then every property of data is the JSON name of some field of C, at every nesting level where a class is read; with skip_unassigned unknown properties never cause an error.", "quantifier": "all classes and JSON objects", "why_tests_cant": "Quantifies over all property names.", "anchors": ["strong_typing/deserializer.py:ClassDeserializer.parse", "strong_typing/deserializer.py:DeserializerOptions"]}
{"id": "C18", "title": "Ignored properties have no influence", "statement": "With skip_unassigned=True, adding, removing or changing properties that belong to no field of the class never changes the outcome (value or error) of deserialization.", "quantifier": "all classes, JSON objects and sets of unknown properties", "why_tests_cant": "Non-interference over all possible extra content.", "anchors": ["strong_typing/deserializer.py:ClassDeserializer.parse"]}
{"id": "C19", "title": "Order of JSON properties is irrelevant", "statement": "Reordering the properties of a JSON object does not change the outcome of deserializing it as a class or tagged union, and for dict[K,V] changes only the iteration order of the result.", "quantifier": "all classes, JSON objects and permutations", "why_tests_cant": "n! orders.", "anchors": ["strong_typing/deserializer.py:ClassDeserializer.parse", "strong_typing/deserializer.py:TaggedUnionDeserializer.parse", "strong_typing/deserializer.py:DictDeserializer.parse"]}
{"id": "C20", "title": "Defaults and optional fields", "statement": "An absent or null property of a field with a default (or default factory) yields that default, otherwise of an Optional field yields None; a present non-null property is always parsed and never replaced by the default.", "quantifier": "all data classes and JSON objects", "why_tests_cant": "Four field kinds times presence/null combinations for any number of fields.", "anchors": ["strong_typing/deserializer.py:DefaultFieldDeserializer.parse_field", "strong_typing/deserializer.py:DefaultFactoryFieldDeserializer.parse_field", "strong_typing/deserializer.py:OptionalFieldDeserializer.parse_field", "strong_typing/deserializer.py:DataclassDeserializer.build"]}
{"id": "C21", "title": "Untagged unions take the first member type that matches", "statement": "json_to_generic(Union[T1..Tn], data) returns the result of the first member type that parses data, and raises JsonKeyError exactly if no member type parses it.", "quantifier": "all member lists and all JSON values", "why_tests_cant": "Any number of members; depends on which errors count as a mismatch.", "anchors": ["strong_typing/deserializer.py:UnionDeserializer.parse"]}
{"id": "C22", "title": "Tagged unions are selected by their tag alone", "statement": "For a union of classes with common literal-typed properties, data whose tag equals a literal of member C is deserialized exactly as C and never as another member, independently of the order of members and of the iteration order of the set of tag properties; data with unknown or missing tag raises JsonTypeError.", "quantifier": "all tagged unions, all member orders, all iteration orders of the tag set, all JSON objects", "why_tests_cant": "Set iteration order of strings changes with every interpreter run (hash randomisation).", "anchors": ["strong_typing/deserializer.py:TaggedUnionDeserializer.parse", "strong_typing/deserializer.py:TaggedUnionDeserializer.build", "strong_typing/deserializer.py:get_discriminating_properties"]}
{"id": "C23", "title": "Ambiguous tagged unions are refused when the deserializer is created", "statement": "Creating a deserializer for a tagged union raises JsonTypeError iff two members (or one member twice) share a literal value of a common tag property.", "quantifier": "all tuples of class types", "why_tests_cant": "Quantifies over all unions.", "anchors": ["strong_typing/deserializer.py:TaggedUnionDeserializer.build", "strong_typing/deserializer.py:get_discriminating_properties"]}
{"id": "C24", "title": "Literal types accept exactly the listed values", "statement": "json_to_generic(Literal[v1..vn], data) succeeds iff data has the common type of the vi and equals one of them, and returns it; literals of mixed types are refused with TypeError when the deserializer or serializer is created.", "quantifier": "all literal value lists and JSON values", "why_tests_cant": "Infinite values.", "anchors": ["strong_typing/deserializer.py:LiteralDeserializer.build", "strong_typing/deserializer.py:LiteralDeserializer.parse", "strong_typing/serializer.py:LiteralSerializer.__init__"]}
{"id": "C25", "title": "Enumerations are looked up by value and round-trip", "statement": "json_to_object(E, data) returns a member whose value equals data, or raises ValueError if there is none; for every member m, json_to_object(E, object_to_json(m)) is m.", "quantifier": "all enumeration types with scalar values and all JSON values", "why_tests_cant": "Quantifies over enumeration definitions, including duplicate (alias) values.", "anchors": ["strong_typing/serializer.py:EnumSerializer.generate", "strong_typing/deserializer.py:EnumDeserializer.parse"]}
{"id": "C26", "title": "Field names map to JSON property names without collisions", "statement": "Two distinct legal Python field names without alias never map to the same JSON property, the trailing underscore is removed exactly from escaped keywords, and an explicit Alias always wins.", "quantifier": "all pairs of Python identifiers", "why_tests_cant": "Pairs of arbitrary identifiers.", "anchors": ["strong_typing/mapping.py:python_field_to_json_property"]}
{"id": "C27", "title": "Writer, reader and schema use the same property name for a field", "statement": "For every class and field, the property name written by object_to_json, the one read by json_to_object and the one listed in classdef_to_schema are equal.", "quantifier": "all class kinds, field names, annotations (evaluated or string) and aliases", "why_tests_cant": "Three independent code paths, quantified over all class definitions.", "anchors": ["strong_typing/serializer.py:TypedClassSerializer.__init__", "strong_typing/deserializer.py:NamedTupleDeserializer.build", "strong_typing/deserializer.py:DataclassDeserializer.build", "strong_typing/deserializer.py:TypedClassDeserializer.build", "strong_typing/schema.py:JsonSchemaGenerator.type_to_schema"]}
{"id": "C28", "title": "Deserialization does not depend on earlier calls", "statement": "The outcome of json_to_object(T, data, options=o) is the same after any sequence of earlier json_to_object calls as in a fresh interpreter.", "quantifier": "all histories of calls (types, data, options)", "why_tests_cant": "Unbounded histories; a process-wide cache is shared by all calls.", "anchors": ["strong_typing/deserializer.py:_get_deserializer", "strong_typing/deserializer.py:_CACHE", "strong_typing/deserializer.py:create_deserializer"]}
{"id": "C29", "title": "A failed attempt to create a deserializer leaves no trace", "statement": "If creating a deserializer for a type raises, a later attempt for the same type raises the same error again instead of using a half-built deserializer.", "quantifier": "all types for which construction fails, all later calls", "why_tests_cant": "Requires reasoning about the intermediate cache state at the point of failure.", "anchors": ["strong_typing/deserializer.py:_get_deserializer"]}
{"id": "C30", "title": "topological_sort returns every node once, after all its dependencies", "statement": "For every finite graph on which topological_sort returns, the result lists every key exactly once, nothing else, and every node after all nodes it has an edge to (self-loops ignored).", "quantifier": "all finite directed graphs, all iteration orders of the edge sets", "why_tests_cant": "Infinitely many graphs.", "anchors": ["strong_typing/topological.py:topological_sort"]}
{"id": "C31", "title": "topological_sort raises exactly on cyclic graphs", "statement": "For a graph whose edges stay within its keys, topological_sort raises RuntimeError iff there is a cycle of at least two nodes; it always terminates.", "quantifier": "all finite directed graphs", "why_tests_cant": "Completeness of cycle detection over all graphs.", "anchors": ["strong_typing/topological.py:topological_sort"]}
{"id": "C32", "title": "type_topological_sort honours member types and dependency_fn", "statement": "In the list returned by type_topological_sort, every type comes after all types its fields refer to and after all types dependency_fn returns for it.", "quantifier": "all class environments and all dependency functions", "why_tests_cant": "Higher-order parameter and arbitrary class graphs.", "anchors": ["strong_typing/topological.py:type_topological_sort", "strong_typing/inspection.py:TypeCollector.run"]}
{"id": "C33", "title": "Referenced types are exactly the reachable types", "statement": "get_referenced_types(T) terminates for every (also recursive) type and returns exactly the classes reachable from T through generic arguments and class members.", "quantifier": "all class environments and types", "why_tests_cant": "Arbitrary cyclic class graphs.", "anchors": ["strong_typing/inspection.py:get_referenced_types", "strong_typing/inspection.py:TypeCollector.run"]}
{"id": "C34", "title": "Serialized objects validate against the generated schema", "statement": "For every type T and value v of type T, validate_object(T, object_to_json(v)) does not raise.", "quantifier": "all supported types and values", "why_tests_cant": "Two code paths (schema generator and serializer) must agree for all nested types.", "anchors": ["strong_typing/schema.py:JsonSchemaGenerator.type_to_schema", "strong_typing/schema.py:classdef_to_schema", "strong_typing/schema.py:validate_object", "strong_typing/serializer.py:object_to_json"]}
{"id": "C35", "title": "Generated schemas have no dangling references", "statement": "In the result of classdef_to_schema every $ref names an entry of definitions, every entry of definitions is referenced (transitively) from the type, and generation terminates for recursive registered types.", "quantifier": "all type catalogs, types and class graphs", "why_tests_cant": "Worklist closure over arbitrary cyclic graphs.", "anchors": ["strong_typing/schema.py:JsonSchemaGenerator.classdef_to_schema", "strong_typing/schema.py:JsonSchemaGenerator._type_to_schema_with_lookup"]}
{"id": "C36", "title": "The schema catalog behaves like a write-once map", "statement": "After any sequence of register_schema calls, a type is known iff it was registered, lookups return the first successful registration, registering a type twice raises ValueError and changes nothing, and two different types never share a definition.", "quantifier": "all histories of registrations", "why_tests_cant": "Unbounded histories.", "anchors": ["strong_typing/schema.py:TypeCatalog.add", "strong_typing/schema.py:TypeCatalog.get", "strong_typing/schema.py:TypeCatalog.__contains__", "strong_typing/schema.py:register_schema"]}
{"id": "C37", "title": "flatten_schema keeps all leaf properties and stays consistent", "statement": "Flattening an object schema yields a schema whose properties are exactly the leaf properties (qualified with the path if requested), recursive flattening leaves no nested object and is idempotent, and every required name is a property of the result.", "quantifier": "all object schemas and options, any nesting depth", "why_tests_cant": "Unbounded nesting and name collisions.", "anchors": ["strong_typing/classdef.py:SchemaFlattener.flatten", "strong_typing/classdef.py:flatten_schema"]}
{"id": "C38", "title": "Integer schemas map to a type wide enough for every permitted value", "statement": "The type chosen for an integer schema with enum or minimum/maximum contains every permitted value whenever those fit into 64 bits, and is the narrowest of int16, int32 and int64 that does.", "quantifier": "all integer ranges", "why_tests_cant": "Boundary values over unbounded integers.", "anchors": ["strong_typing/classdef.py:integer_range_to_type", "strong_typing/classdef.py:node_to_typedef"]}
{"id": "C39", "title": "Enumeration types created from a schema keep every value", "statement": "For a string schema with enum values v1..vn, the generated enumeration has exactly these values, under member names that are legal and not reserved.", "quantifier": "all lists of distinct strings", "why_tests_cant": "Arbitrary strings.", "anchors": ["strong_typing/classdef.py:enum_safe_name", "strong_typing/classdef.py:enum_values_to_type", "strong_typing/classdef.py:node_to_typedef"]}
{"id": "C40", "title": "Docstrings survive formatting and parsing", "statement": "For every well-formed Docstring d, parse_text(str(d)) == d.", "quantifier": "all docstrings (any number of params, raises and see entries, any text)", "why_tests_cant": "Unbounded text.", "anchors": ["strong_typing/docstring.py:parse_text", "strong_typing/docstring.py:Docstring.__str__"]}
{"id": "C41", "title": "Docstring parsing is total and checking is exact", "statement": "parse_text raises for no text, and checking a data class or function docstring raises TypeError iff a documented parameter does not exist (or, in strict mode, a parameter is undocumented).", "quantifier": "all texts, parameter lists and signatures", "why_tests_cant": "All strings.", "anchors": ["strong_typing/docstring.py:parse_text", "strong_typing/docstring.py:check_dataclass_docstring", "strong_typing/docstring.py:check_function_docstring"]}
{"id": "C42", "title": "is_generic_instance decides membership structurally", "statement": "is_generic_instance(obj, T) is True iff obj is a value of T: container class matches and all items, keys, values, tuple positions or some union member match recursively.", "quantifier": "all types and objects", "why_tests_cant": "Unbounded nesting.", "anchors": ["strong_typing/inspection.py:is_generic_instance"]}
{"id": "C43", "title": "check_recursive tests the predicate on every nested member", "statement": "check_recursive(obj, pred=p) returns True iff p holds for every scalar, enumeration and union-typed member reachable inside obj; with type_pred and value_pred it is True iff value_pred holds on all members whose type satisfies type_pred.", "quantifier": "all objects and predicates", "why_tests_cant": "Higher-order and unbounded nesting.", "anchors": ["strong_typing/inspection.py:RecursiveChecker.check", "strong_typing/inspection.py:check_recursive"]}
{"id": "C44", "title": "Type unwrapping helpers are mutually consistent", "statement": "unwrap_optional_type removes exactly None from a union and keeps annotations, is_type_optional and is_type_union decide exactly the documented shapes, and unwrapping/rewrapping annotations preserves the annotation tuple.", "quantifier": "all types", "why_tests_cant": "All type expressions.", "anchors": ["strong_typing/inspection.py:is_type_optional", "strong_typing/inspection.py:unwrap_optional_type", "strong_typing/inspection.py:is_type_union", "strong_typing/inspection.py:unwrap_union_types", "strong_typing/inspection.py:rewrap_annotated_type", "strong_typing/inspection.py:get_annotation"]}
{"id": "C45", "title": "extend_enum adds members without losing any", "statement": "The enumeration produced by extend_enum(source)(extend) has exactly the members of both, extending members override source members of the same name, and duplicate values raise ValueError.", "quantifier": "all pairs of enumeration definitions", "why_tests_cant": "All definitions.", "anchors": ["strong_typing/inspection.py:extend_enum"]}
{"id": "C46", "title": "JSON text output is compact and lossless", "statement": "json_dump_string(j) contains no whitespace outside string literals and parsing the text gives back j.", "quantifier": "all JSON values without floats (floats: repr is runtime behaviour)", "why_tests_cant": "Unbounded nesting and all characters, including escapes.", "anchors": ["strong_typing/serialization.py:json_dump_string", "strong_typing/serialization.py:json_dump"]}
{"id": "C47", "title": "Type names are unambiguous", "statement": "Two different type expressions built from distinct simple class names by list, dict, set, tuple, Optional, Union and Literal never have the same python_type_to_str.", "quantifier": "all type expressions", "why_tests_cant": "All pairs of type expressions.", "anchors": ["strong_typing/name.py:TypeFormatter.python_type_to_str", "strong_typing/name.py:TypeFormatter.plain_type_to_str", "strong_typing/name.py:TypeFormatter.union_to_str"]}
{"id": "C48", "title": "Serializers can be created for recursive classes", "statement": "create_serializer terminates for every data class, including classes that refer to themselves or to each other.", "quantifier": "all class environments", "why_tests_cant": "Termination over arbitrary cyclic class graphs.", "anchors": ["strong_typing/serializer.py:_fetch_serializer", "strong_typing/serializer.py:_create_serializer", "strong_typing/serializer.py:TypedClassSerializer.__init__"]}
{"id": "C49", "title": "Concurrent first use of a type is safe", "statement": "When several threads call json_to_object for the same type concurrently, each call has the outcome it would have alone.", "quantifier": "all interleavings of any number of threads", "why_tests_cant": "The race window is a few bytecodes wide; schedules cannot be enumerated by tests.", "anchors": ["strong_typing/deserializer.py:_get_deserializer", "strong_typing/deserializer.py:_CACHE"]}
{"id": "C50", "title": "Numeric annotations describe the intended range in the schema", "statement": "The schema of Annotated[int, IntegerRange(a,b)] admits exactly the integers in [a,b]; Precision(s,d) admits exactly the multiples of 10^-d of absolute value below 10^(s-d); MinLength/MaxLength bound the length; the fixed-width integer types carry the exact two's complement or unsigned range.", "quantifier": "all annotation parameters and all numbers", "why_tests_cant": "Unbounded integers, boundary values.", "anchors": ["strong_typing/schema.py:JsonSchemaGenerator._metadata_to_schema", "strong_typing/schema.py:JsonSchemaGenerator._with_metadata", "strong_typing/auxiliary.py:IntegerRange", "strong_typing/auxiliary.py:Precision", "strong_typing/auxiliary.py:int8"]}
{"id": "C51", "title": "parse_type attaches the declared types to documented names", "statement": "parse_type raises iff the docstring text is not parsed, the check of its parameters fails, or a documented exception is not defined in the context; otherwise every documented parameter has the type declared for that name, the return value the return annotation, and every documented exception the class of that name. The docstring generated by @dataclass counts as none.", "quantifier": "all texts, classes, signatures and contexts", "why_tests_cant": "All strings and signatures; absence of KeyError follows from the check only.", "anchors": ["strong_typing/docstring.py:parse_type", "strong_typing/docstring.py:get_docstring", "strong_typing/docstring.py:has_default_docstring", "strong_typing/docstring.py:check_docstring"]}
{"id": "C52", "title": "to_json and from_json decide alone", "statement": "Wherever an object of a class with to_json is written, at any depth inside other values, the data at its position is exactly what the method returns, and the declared fields of the class have no influence; wherever data is read as a class with from_json, the value at its position is exactly what the method returns for the data.", "quantifier": "all programs, methods, types, values and positions", "why_tests_cant": "Arbitrary user methods at arbitrary nesting in all kinds of containers.", "anchors": ["strong_typing/serializer.py:_create_serializer", "strong_typing/serializer.py:CustomSerializer", "strong_typing/deserializer.py:_create_deserializer", "strong_typing/deserializer.py:CustomDeserializer"]}
{"id": "C53", "title": "Types made from a schema read what the schema permits", "statement": "When schema_to_type makes types from a JSON Schema document, every JSON value that is valid for the document is read without error by the deserializer of the resulting type.", "quantifier": "all schema documents for which types are made, all environments, all valid JSON values", "why_tests_cant": "Nested schemas with references, unions, enumerations and formats, and all data valid for them, are infinite families.", "anchors": ["strong_typing/classdef.py:schema_to_type", "strong_typing/classdef.py:node_to_typedef", "strong_typing/deserializer.py:create_deserializer"]}
{"id": "C54", "title": "A type made from the schema of a class reads what the class writes", "statement": "For a data class with a JSON schema generated by classdef_to_schema, schema_to_type makes a type from that schema, and the type reads whatever object_to_json writes for values of the class.", "quantifier": "for all programs, catalogs of registered types, classes, values of the class, and names of the new class", "why_tests_cant": "It relates three components over all class definitions and values: the schema generator, the builder of types from schemas, and the reader; tests cover a handful of classes.", "anchors": ["strong_typing/classdef.py:schema_to_type", "strong_typing/classdef.py:node_to_typedef", "strong_typing/schema.py:classdef_to_schema", "strong_typing/serialization.py:object_to_json"]}
{"id": "C55", "title": "schema_to_type makes types from the documents of its vocabulary and from no others", "statement": "schema_to_type makes a data class with one field per property from every closed JSON Schema document in its vocabulary whose references are to its definitions. It raises an exception for documents with unknown keywords, open objects, property names that cannot be field names, references to names that are not defined, defaults inside lists and alternatives, or empty alternatives, however deep they are in the document.", "quantifier": "for all JSON documents, class names and programs", "why_tests_cant": "Documents nest without bound; tests try a handful of schemas, and hardly any that must be rejected.", "anchors": ["strong_typing/classdef.py:schema_to_type", "strong_typing/classdef.py:node_to_typedef", "strong_typing/classdef.py:json_to_value", "strong_typing/classdef.py:JsonSchemaAny"]}
{"id": "C56", "title": "Generated schemas are valid for the meta-schema", "statement": "Whatever classdef_to_schema makes for a type and the types that it refers to is a valid JSON Schema (Draft 2020-12), so that its final check never raises TypeError, and the document names the meta-schema.", "quantifier": "for all types, programs, catalogs and options", "why_tests_cant": "Types nest without bound, and the meta-schema has dozens of rules on keywords; tests check the schemas of a handful of types.", "anchors": ["strong_typing/schema.py:classdef_to_schema", "strong_typing/schema.py:JsonSchemaGenerator.type_to_schema", "strong_typing/schema.py:JsonSchemaGenerator._metadata_to_schema"]}
{"id": "C57", "title": "Titles and descriptions do not change what a schema accepts", "statement": "Apart from titles and descriptions, classdef_to_schema returns with use_descriptions the schema that it returns without documentation strings, or raises the same exception; the same JSON documents are valid for both. The title and description of a class are the short and long description of its documentation string, and the description of a property is that of the parameter in the first class in the method resolution order that documents it.", "quantifier": "for all types, programs, catalogs, options, documentation strings and JSON documents", "why_tests_cant": "Documentation strings are arbitrary text and schemas nest without bound; a test compares a few classes with short texts.", "anchors": ["strong_typing/schema.py:docstring_to_schema", "strong_typing/schema.py:get_class_docstrings", "strong_typing/schema.py:get_class_property_docstrings", "strong_typing/schema.py:JsonSchemaGenerator.type_to_schema", "strong_typing/schema.py:JsonSchemaGenerator._type_to_schema_with_lookup"]}
{"id": "C58", "title": "Annotated types are named unambiguously", "statement": "Two annotated types with the same python_type_to_str annotate the same type with the same annotations in the same order, and no type without annotations has that text. A type is written as int8, float32 and so on exactly if it is that auxiliary type; annotations beyond those of an auxiliary type are listed after its name, in their order.", "quantifier": "all annotated types, all annotations with arguments that are None, booleans, integers or strings", "why_tests_cant": "Types nest without bound, annotations are arbitrary lists with arbitrary text, and the claim is about pairs of types.", "anchors": ["strong_typing/name.py:TypeFormatter.python_type_to_str", "strong_typing/auxiliary.py:_compact_dataclass_repr", "strong_typing/auxiliary.py:_auxiliary_types"]}
{"id": "C59", "title": "Short names tell types apart", "statement": "python_type_to_name returns a name for every class, and with force for every standard collection, optional type and union of classes, and raises TypeError for other types. Two types with the same name are equal apart from annotations that are not those of an auxiliary type.", "quantifier": "all type expressions, with and without force", "why_tests_cant": "It is a claim about all pairs of types over arbitrary class names.", "anchors": ["strong_typing/name.py:python_type_to_name", "strong_typing/auxiliary.py:_auxiliary_types", "strong_typing/inspection.py:is_type_optional"]}
{"id": "C60", "title": "What is read can be written back", "statement": "A value that json_to_object has read from a document of a document type (None, bool, int, float, str, literals, enumerations, lists, tuples, dictionaries with text keys, unions, and data classes and plain classes of these whose fields are read and written under the same name) can be written with object_to_json, and the document written says the same as the one read: scalars are equal (an integer read as float becomes that float), arrays have the same length and order, dictionaries the same keys in the same order, and objects the same members except those that were null, except unknown members if these are ignored, and except members added for fields with defaults.", "quantifier": "all documents, all document types including recursive classes, with and without ignoring unknown members", "why_tests_cant": "Documents nest without bound and classes may be recursive; the claim compares two runs of different code for every document and type.", "anchors": ["strong_typing/serialization.py:json_to_object", "strong_typing/serialization.py:object_to_json", "strong_typing/deserializer.py:ClassDeserializer", "strong_typing/serializer.py:ClassSerializer"]}
{"id": "C61", "title": "flatten_schema returns a flat schema that says the same", "statement": "flatten_schema succeeds exactly for documents that can be read as JsonSchemaTopLevelObject. The result is an object schema without additional properties that can itself be flattened. Each of its properties has the name of a path through nested objects of the document and the schema at the end of that path, the name of each path is a property, and the required names are those of the paths whose innermost object requires the property; with recursion no property is of type object. All other keywords are kept. If no names collide, a second recursive flattening returns the same document.", "quantifier": "all JSON documents, all options", "why_tests_cant": "Schemas nest without bound, and the claim spans reading, flattening and writing of every document, including null members, keywords in any order, and numbers given as booleans.", "anchors": ["strong_typing/classdef.py:flatten_schema", "strong_typing/classdef.py:SchemaFlattener", "strong_typing/classdef.py:JsonSchemaTopLevelObject"]}
{"id": "C62", "title": "Data that validates against the schema of a type is read by the type", "statement": "If validate_object(T, data) returns, then json_to_object(T, data) returns an object of type T: the schema generated for T admits no data that the deserializer for T refuses.", "quantifier": "all types (containers, unions with and without tag, literals, enumerations, recursive and registered classes), all data, all catalogs of registered types", "why_tests_cant": "The claim compares two programs that are written independently, the schema generator with the meaning of JSON schema on one side and the deserializer on the other, for data of any depth, which includes the data that nobody thought of as an example.", "anchors": ["strong_typing/schema.py:validate_object", "strong_typing/schema.py:classdef_to_schema", "strong_typing/serialization.py:json_to_object", "strong_typing/deserializer.py:create_deserializer"]}
{"id": "C63", "title": "Types are classified by one test and taken apart without loss", "statement": "The tests is_dataclass_type, is_named_tuple_type, is_type_enum, is_type_literal, is_generic_list, is_generic_set, is_generic_dict and is_type_optional/is_type_union each recognise exactly the types of their form, with or without annotations, and no two of them recognise the same type. For a recognised type the unwrap functions return its parameters: the item type with the annotations of the container, the key and value types, or the literal values with their types, and these determine which values the type has. get_class_property and dataclass_field_by_name return what the class declares under a name, and nothing if it declares nothing.", "quantifier": "all types, classes and names", "why_tests_cant": "Types nest without bound, and that two tests never overlap is a statement about all types.", "anchors": ["strong_typing/inspection.py:is_dataclass_type", "strong_typing/inspection.py:is_named_tuple_type", "strong_typing/inspection.py:is_type_enum", "strong_typing/inspection.py:is_type_literal", "strong_typing/inspection.py:unwrap_literal_value", "strong_typing/inspection.py:unwrap_literal_types", "strong_typing/inspection.py:unwrap_generic_list", "strong_typing/inspection.py:unwrap_generic_set", "strong_typing/inspection.py:unwrap_generic_dict", "strong_typing/inspection.py:get_class_property", "strong_typing/inspection.py:dataclass_field_by_name"]}
{"id": "C64", "title": "A class that gains optional fields stays compatible", "statement": "Let a later version of a program differ from an earlier one only in that classes have further fields which need not be present in the data. Then whatever the earlier version reads (and so whatever it wrote before), the later version reads with the same result, each new field having its default. Conversely, whatever the later version reads or writes, the earlier version reads when it skips unknown properties, with the same values for all fields that it has.", "quantifier": "all pairs of versions of a program, all types (containers, recursive classes, unions with tags), all data, all iteration orders of sets in either version", "why_tests_cant": "The claim relates two programs on all data; a test fixes one pair of versions and one document. The changes may be anywhere in a recursive structure, and which member of a union is selected depends on all classes together.", "anchors": ["strong_typing/deserializer.py:ClassDeserializer.parse", "strong_typing/deserializer.py:DataclassDeserializer.build", "strong_typing/deserializer.py:OptionalFieldDeserializer.parse_field", "strong_typing/deserializer.py:DefaultFieldDeserializer.parse_field", "strong_typing/deserializer.py:TaggedUnionDeserializer.parse", "strong_typing/serialization.py:json_to_object"]}
{"id": "C65", "title": "What a generated schema accepts is determined by the type alone", "statement": "The schema generated for a type accepts exactly the JSON values that belong to the type: of a container those whose items belong to the item type, of a union those that belong to exactly one member, of a class those objects whose properties are fields of the class with values of their types and among which all fields that are not optional are present. It rejects all other values, recursive types included. Which types are registered, and are therefore referred to by name instead of being expanded, makes no difference to what is accepted.", "quantifier": "all types, programs (recursive classes included), catalogs of registered types and JSON values", "why_tests_cant": "The claim is an equivalence for all values of arbitrarily nested and recursive types; a test can only try some accepted and some rejected values, and compares no two catalogs for all data.", "anchors": ["strong_typing/schema.py:JsonSchemaGenerator.type_to_schema", "strong_typing/schema.py:JsonSchemaGenerator._simple_type_to_schema", "strong_typing/schema.py:JsonSchemaGenerator._type_to_schema_with_lookup", "strong_typing/schema.py:JsonSchemaGenerator.classdef_to_schema", "strong_typing/schema.py:classdef_to_schema", "strong_typing/schema.py:TypeCatalog.add"]}
{"id": "C66", "title": "Data stays valid when classes gain optional fields", "statement": "Let a later version of a program differ from an earlier one only in that classes have further fields that need not be present in the data. Then data that is valid for the schema that the earlier version generates for a type is valid for the schema that the later version generates for it, and data that is valid for the later schema and does not use the new properties is valid for the earlier one.", "quantifier": "all pairs of versions of a program, all types, all catalogs, all data", "why_tests_cant": "The claim relates two generated schemas on all data, with changes anywhere in a recursive structure; a test fixes the versions and the documents.", "anchors": ["strong_typing/schema.py:JsonSchemaGenerator.type_to_schema", "strong_typing/schema.py:JsonSchemaGenerator.classdef_to_schema", "strong_typing/schema.py:classdef_to_schema", "strong_typing/schema.py:validate_object"]}
{"id": "C67", "title": "Contents of modules, and exceptions and texts of documentation", "statement": "The classes and functions listed for a module are those declared in it, each once, ordered by name. An exception named in the documentation of a type stands for the exception that this name has in the module of the type, or else for the built-in exception of that name; documentation that names anything else is refused. Making a module that exists is refused, otherwise the new module is known by its name, is empty, and no other module changes. A type has documentation iff there is a text that is neither empty nor generated; without documentation there are no components. The full description is what is written in front of all entries, and reading it back gives the same descriptions.", "quantifier": "all modules, names, documentation texts and documented types", "why_tests_cant": "Tests look at a handful of modules and texts; aliases, imported names and names that hide built-in exceptions are not tried in combination.", "anchors": ["strong_typing/inspection.py:get_module_classes", "strong_typing/inspection.py:get_module_functions", "strong_typing/inspection.py:create_module", "strong_typing/docstring.py:is_exception", "strong_typing/docstring.py:get_exceptions", "strong_typing/docstring.py:parse_type", "strong_typing/docstring.py:has_docstring", "strong_typing/docstring.py:get_docstring", "strong_typing/docstring.py:Docstring.full_description"]}
{"id": "C68", "title": "Reading fails only with documented exceptions", "statement": "Reading a value of a type from data either succeeds or raises TypeError if no deserializer can be constructed for the type, JsonKeyError if no member of a class or union fits, or JsonTypeError if types do not match; no other exception occurs. Which exceptions occur depends on the type alone in the sense that each type has a set of exceptions, and every exception in the set is raised for some data.", "quantifier": "all programs, types, JSON values and options", "why_tests_cant": "Tests assert particular exceptions for particular malformed data; that nothing else can escape is a claim about all malformed data at any depth of any type.", "anchors": ["strong_typing/serialization.py:json_to_object", "strong_typing/serialization.py:json_to_generic", "strong_typing/deserializer.py:Deserializer.parse", "strong_typing/deserializer.py:create_deserializer", "strong_typing/exception.py:JsonKeyError", "strong_typing/exception.py:JsonTypeError", "strong_typing/exception.py:JsonValueError"]}
{"id": "C69", "title": "Objects survive being stored as text", "statement": "The JSON text of an object, read as JSON and de-serialized with the type of the object, gives the object back; objects of a type with the same text are equal; and objects written to one file one after the other with json_dump come back from the lines of the file, in order.", "quantifier": "all programs, types and objects of the type, all lists of objects", "why_tests_cant": "Tests check the conversion of objects and the text of a few JSON values separately; the claim is about the composition for all objects, with any characters in texts.", "anchors": ["strong_typing/serialization.py:object_to_json", "strong_typing/serialization.py:json_to_object", "strong_typing/serialization.py:json_dump_string", "strong_typing/serialization.py:json_dump"]}
{"id": "C70", "title": "For which types there is a schema", "statement": "A JSON schema can be generated for a type exactly if each part of the type that has to be written out has one: scalars, containers of types with a schema, unions (not Optional) of such types, literals of one value, enumerations whose values have one type, registered types (by reference), and classes all of whose members have a schema and whose defaults can be written; a class never has a schema if it would have to be written out within itself. A document exists exactly if moreover each type to which references lead has a schema, and it defines exactly these types.", "quantifier": "all programs, catalogs, options and types", "why_tests_cant": "Tests generate schemas for a list of sample types; which combinations of unregistered, registered and recursive classes terminate and succeed is a statement about all class graphs.", "anchors": ["strong_typing/schema.py:JsonSchemaGenerator.type_to_schema", "strong_typing/schema.py:JsonSchemaGenerator._type_to_schema_with_lookup", "strong_typing/schema.py:JsonSchemaGenerator.classdef_to_schema"]}
{"id": "C71", "title": "Which objects can be written", "statement": "An object is written, as a given type, exactly if the type has a serializer and no part of the object that is visited has one of these faults: a date-time without time zone (JsonValueError), an object of a class without serializer as member of a union or in a container without declared element types, a custom method that raises, an object that lacks a declared member (AttributeError), a dictionary with keys that are not members of an enumeration although its type or its first key says so (AttributeError). Attributes that are None, and special attributes of objects of classes without annotations, are not visited. The exception raised is that of a visited part. If all objects have the attributes that their classes declare, then the declared type makes no difference.", "quantifier": "all programs, types and values", "why_tests_cant": "Faults can be at any depth, below declared types, unions and containers without declared types; tests serialize sample objects that succeed.", "anchors": ["strong_typing/serializer.py:create_serializer", "strong_typing/serializer.py:UntypedDictSerializer.generate", "strong_typing/serializer.py:TypedClassSerializer.generate", "strong_typing/serializer.py:UntypedClassSerializer.generate", "strong_typing/serializer.py:DateTimeSerializer.generate"]}
{"id": "C72", "title": "Members of derived classes", "statement": "For classes that are derived from other classes, readers, writers and schemas agree on the members: the same names, in the order in which base classes introduce them, each once, with the type annotated in the nearest class of the method resolution order. An object of a derived class that is written where a base class is declared gives the JSON of the base class, whatever its further attributes, and is read back as the object of the base class.", "quantifier": "all sequences of class statements (any number of base classes, with or without decorator), all objects", "why_tests_cant": "Tests have a few classes with one base class each; the readers take types from typing.get_type_hints and the writers from dataclasses.fields, which agree for these and disagree for some class hierarchies.", "anchors": ["strong_typing/inspection.py:get_class_properties", "strong_typing/inspection.py:get_resolved_hints", "strong_typing/inspection.py:dataclass_fields", "strong_typing/deserializer.py:DataclassDeserializer.build", "strong_typing/deserializer.py:TypedClassDeserializer.build", "strong_typing/serializer.py:TypedClassSerializer.__init__"]}
{"id": "C73", "title": "Unrestricted JSON types", "statement": "JsonType stands for every JSON value: reading data as JsonType returns the data unchanged, writing the resulting object returns the data, and the schema of JsonType accepts every JSON value. StrictJsonType does the same for JSON values without null and rejects those with null. JsonObject and JsonArray stand for every object and every array, and Any for every value.", "quantifier": "all JSON values of any depth, all modules in which the names are looked up, all programs", "why_tests_cant": "The types are recursive and stand for infinitely many values; tests read and validate a few.", "anchors": ["strong_typing/core.py:JsonType", "strong_typing/core.py:StrictJsonType", "strong_typing/core.py:JsonObject", "strong_typing/deserializer.py:_get_deserializer", "strong_typing/deserializer.py:UnionDeserializer.parse", "strong_typing/serialization.py:json_to_object", "strong_typing/serializer.py:UntypedDictSerializer.generate", "strong_typing/schema.py:JsonSchemaGenerator.type_to_schema", "strong_typing/schema.py:register_schema"]}
{"id": "C74", "title": "Wider types read old data as before", "statement": "If a later version of a program only widens the types of fields (T becomes Optional[T] or a union with T, a Literal gains values or becomes the type of its values, an enumeration gains members, a union of tagged classes gains a class, a required field gains a default), everything that the earlier version reads is read by the later version as the same value; so is everything that the earlier version has written.", "quantifier": "all pairs of programs related by widening, all types, all JSON data of any depth, both settings for unknown properties", "why_tests_cant": "The claim compares two programs on all data; tests run one program on a few documents. Data of any depth and all combinations of widened types are beyond enumeration.", "anchors": ["strong_typing/deserializer.py:UnionDeserializer.parse", "strong_typing/deserializer.py:TaggedUnionDeserializer.parse", "strong_typing/deserializer.py:LiteralDeserializer.parse", "strong_typing/deserializer.py:EnumDeserializer.parse", "strong_typing/deserializer.py:ClassDeserializer.parse", "strong_typing/deserializer.py:DefaultFieldDeserializer.parse_field", "strong_typing/deserializer.py:DataclassDeserializer.build"]}
{"id": "C75", "title": "Reading does not depend on the hash seed", "statement": "The result of reading JSON data as a type is the same in all runs of a program: it does not depend on the order in which Python iterates over sets of strings, which changes with the hash seed of the process (PYTHONHASHSEED). This concerns whether a deserializer can be created, which value is read, and which error is raised.", "quantifier": "all programs, all types, all JSON data, all iteration orders of sets", "why_tests_cant": "A test process has one hash seed; a dependence on the seed shows up as a test that fails now and then, or only in production, and only for data that combines several tags.", "anchors": ["strong_typing/deserializer.py:get_discriminating_properties", "strong_typing/deserializer.py:TaggedUnionDeserializer.build", "strong_typing/deserializer.py:TaggedUnionDeserializer.parse", "strong_typing/deserializer.py:UnionDeserializer.parse"]}
{"id": "C76", "title": "Equal objects are written as equal JSON", "statement": "If two Python objects are equal (==), then object_to_json, and the serializer of a type that both have, returns equal JSON values for them, or raises for both: the JSON does not depend on which of several equal objects is written, on the order in which a dictionary was filled, or on whether a number is an int, a float or a bool.", "quantifier": "all programs whose to_json methods respect equality, all pairs of equal objects", "why_tests_cant": "Tests compare an object with itself or with a copy made the same way; equality relates objects with a different history: dictionaries filled in another order, equal instants in other time zones, sets with another insertion order.", "anchors": ["strong_typing/serializer.py:object_to_json", "strong_typing/serializer.py:UntypedDictSerializer.generate", "strong_typing/serializer.py:TypedClassSerializer.generate", "strong_typing/serializer.py:UntypedNamedTupleSerializer.generate", "strong_typing/serializer.py:DateTimeSerializer.generate"]}
{"id": "C77", "title": "For which types there is a deserializer", "statement": "As long as no creation of a deserializer has failed, create_deserializer succeeds for a type exactly if neither the type nor the declared type of a member of a class that it leads to (without None where the member is optional, and not beyond classes with from_json) contains a container without element type, a dictionary whose keys are not text, literals of different types, or a tagged union in which a value of a tag occurs twice; classes may refer to themselves. Otherwise it raises TypeError or JsonTypeError, and nothing else. A type without such faults gets a deserializer whatever has happened before.", "quantifier": "all programs whose annotations refer to existing classes, all types, all earlier calls", "why_tests_cant": "An equivalence over all types and all programs, including mutually recursive classes, and over all states of the cache; tests try some types and some classes in one order.", "anchors": ["strong_typing/deserializer.py:create_deserializer", "strong_typing/deserializer.py:_get_deserializer", "strong_typing/deserializer.py:_create_deserializer", "strong_typing/deserializer.py:DictDeserializer._check_key_type", "strong_typing/deserializer.py:TaggedUnionDeserializer.build", "strong_typing/deserializer.py:LiteralDeserializer"]}
{"id": "C78", "title": "Which option is in force", "statement": "After any sequence of calls of json_to_object for types that have deserializers, a further call applies to every class the option skip_unassigned of the first call (of those before, then of itself) whose type leads to the class. In particular, once a type has been read with one option, all later calls for this type behave as if they had been made with that option in a fresh interpreter, whatever their own option is; and properties that do not belong to a class are ignored or refused according to this rule alone.", "quantifier": "all programs whose annotations refer to existing classes, all sequences of earlier calls (types, options, documents), all types that have deserializers, all documents", "why_tests_cant": "The rule is about all sequences of calls and all ways in which classes lead to each other, including mutually recursive ones; a test tries a few sequences.", "anchors": ["strong_typing/deserializer.py:create_deserializer", "strong_typing/deserializer.py:_get_deserializer", "strong_typing/deserializer.py:ClassDeserializer.parse", "strong_typing/serialization.py:json_to_object"]}
{"id": "C79", "title": "Data that is read is valid for the schema", "statement": "If json_to_object(T, data) returns, then validate_object(T, data) does not raise, except for the liberties of the reader: a Boolean for a number, a text in a form unknown to the checker of formats, a value that does not keep to an annotation, a repeated item of a set, null for a property, a missing property of a field with a default. For types without unions these are exactly the cases in which data is read and refused by the validator.", "quantifier": "all programs and types of the kind described (unions whose members exclude each other, no IP addresses, no from_json, names of fields that are no keywords), all well-formed JSON documents", "why_tests_cant": "The reader and the schema are written independently of each other; that they differ in these points and in no other is a statement about all types and all documents.", "anchors": ["strong_typing/schema.py:validate_object", "strong_typing/schema.py:JsonSchemaGenerator.type_to_schema", "strong_typing/serialization.py:json_to_object", "strong_typing/deserializer.py:ClassDeserializer.parse"]}
{"id": "C80", "title": "Reader and writer take texts in annotations for the same types", "statement": "If the annotations of a class have texts in them, in whole or in part (forward references, from __future__ import annotations), then json_to_object takes each field for the type that the annotation means without the quotes, and object_to_json makes a writer for the same type.", "quantifier": "all programs, all annotations of the kind described (texts of any depth, any parser), all classes with their base classes, in whichever modules", "why_tests_cant": "typing.get_type_hints and evaluate_type look for names in different places; that they agree for every expression and every nesting of texts, and where they do not, depends on all namespaces together.", "anchors": ["strong_typing/inspection.py:evaluate_type", "strong_typing/inspection.py:evaluate_member_type", "strong_typing/inspection.py:get_resolved_hints", "strong_typing/serializer.py:_get_serializer", "strong_typing/serializer.py:TypedClassSerializer"]}
{"id": "C81", "title": "Objects that do not have the declared type", "statement": "create_serializer(T).generate(obj) ends for every object, refuses an object that does not have type T with an exception, and returns a JSON value otherwise; for objects of type T the outcome is the one described by the other properties.", "quantifier": "all programs, types and objects, whether or not the object has the type", "why_tests_cant": "Serializers use whatever operations an object has; which combinations of type and object, at any depth, are refused, passed on unchanged or written as something else cannot be enumerated.", "anchors": ["strong_typing/serializer.py:Serializer", "strong_typing/serializer.py:create_serializer", "strong_typing/serializer.py:object_to_json"]}
{"id": "C82", "title": "Types given by name are read as the types they stand for", "statement": "json_to_generic(T, data, context=module), where T is a name or has names in it (texts or forward references), has the outcome that it has for T with all names replaced by the types that they stand for in the module, recursive types included; it ends, and earlier calls have no influence.", "quantifier": "all programs, types with names in them, including types that refer to themselves, and all JSON data, in any state of the cache", "why_tests_cant": "Recursive types have no finite expansion, so data of every depth is a case of its own; the cache makes the outcome depend on the calls made before.", "anchors": ["strong_typing/deserializer.py:_get_deserializer", "strong_typing/deserializer.py:_create_deserializer", "strong_typing/inspection.py:evaluate_type", "strong_typing/serialization.py:json_to_object"]}
{"id": "C83", "title": "Texts of types that have names in them", "statement": "TypeFormatter(context=module).python_type_to_str(T), where T may have forward references and texts in it, gives a text that stands for the same type as T in the module: names of the module are kept, other names are replaced by what they stand for, classes are shown by type_transform if there is one; without a context names are kept. Different types have different texts.", "quantifier": "all type expressions with names, all contexts and transformations, with and without the union operator", "why_tests_cant": "Names may stand for types with names, to any depth and without end; which of them are kept, replaced or transformed depends on the whole context.", "anchors": ["strong_typing/name.py:TypeFormatter.plain_type_to_str", "strong_typing/name.py:TypeFormatter.python_type_to_str", "strong_typing/name.py:TypeFormatter.union_to_str", "strong_typing/name.py:python_type_to_str"]}
{"id": "C84", "title": "Types collected from annotations with texts", "statement": "get_referenced_types(T, module), where T and the annotations of members may be texts, forward references, or have them in them, ends, and returns exactly the classes that can be reached from T through type arguments and the types of members, where each text is taken for the type that it stands for in the module in which it is written (as get_type_hints has it). type_topological_sort of classes has each class after those that its members mention.", "quantifier": "all types, all programs (modules, classes with inherited members, names, texts), recursive classes included", "why_tests_cant": "What a text stands for depends on the whole program, names may lead to further texts, and classes may be recursive; equality with the reachable classes has to hold for every program.", "anchors": ["strong_typing/inspection.py:get_referenced_types", "strong_typing/inspection.py:TypeCollector.run", "strong_typing/inspection.py:evaluate_type", "strong_typing/inspection.py:dataclass_fields", "strong_typing/topological.py:type_topological_sort"]}
{"id": "C85", "title": "Objects checked against types with names in them", "statement": "is_generic_instance(obj, T), where T may have forward references in it, has an answer, and the answer is whether obj is of the type that T means, with each name taken for what it stands for where T is written. is_type_like accepts exactly the objects that mean a type.", "quantifier": "all types with names, texts, unions and collections, all programs (modules and names), all objects", "why_tests_cant": "What a name stands for depends on the whole program, and types and objects may be nested to any depth.", "anchors": ["strong_typing/inspection.py:is_generic_instance", "strong_typing/inspection.py:is_type_like", "strong_typing/inspection.py:_is_type_like"]}
{"id": "C86", "title": "What schema_to_type does to the module", "statement": "schema_to_type adds types to the program and changes nothing else: classes and enumerations that exist stay as they are, and attributes of the module change only under the given class name, the names of definitions, and names joined to these by two underscores. Every class and enumeration that is made belongs to the module and is found in it under its own name; the class that is returned is found under the given name.", "quantifier": "all schema documents, all class names, all programs and modules before the call", "why_tests_cant": "Which names are set depends on the whole document, nested to any depth, and on what is in the module before.", "anchors": ["strong_typing/classdef.py:schema_to_type", "strong_typing/classdef.py:node_to_typedef", "strong_typing/classdef.py:enum_values_to_type"]}
{"id": "C87", "title": "Types made from a document do not depend on what was in the module before", "statement": "Whether schema_to_type accepts a document, and which type, classes and enumerations it makes, does not depend on the attributes that the module had before the call: with the same program and other contents of the module, the same type is made with the same classes, or the same error is raised.", "quantifier": "all schema documents, all class names, all programs, all pairs of contents of the module", "why_tests_cant": "References are resolved in the module at the moment the definition is read; whether an old attribute is seen depends on the order of definitions and on references at any depth.", "anchors": ["strong_typing/classdef.py:schema_to_type", "strong_typing/classdef.py:node_to_typedef"]}
{"id": "C88", "title": "What a failed schema_to_type leaves behind", "statement": "A call of schema_to_type that raises an exception leaves the program and the module as they were: no class and no enumeration is added, no class is changed, and no attribute of the module is set.", "quantifier": "all schema documents, all class names, all programs and modules before the call", "why_tests_cant": "How much is made before the exception depends on where in the document the fault lies, at any depth and in any definition.", "anchors": ["strong_typing/classdef.py:schema_to_type", "strong_typing/classdef.py:node_to_typedef", "strong_typing/classdef.py:enum_values_to_type"]}
{"id": "C89", "title": "Data classes made by create_data_type", "statement": "create_data_type accepts exactly the lists of fields whose names are identifiers, not keywords and all different, with a class name without null characters, and raises TypeError or ValueError otherwise. The class has the given name and exactly the given fields in order, without defaults; instances survive being written and read; and how documents are read as one of the classes does not depend on what was read as another.", "quantifier": "all series of declarations of classes, all programs before them, all instances, all sequences of earlier reads", "why_tests_cant": "Classes made at run time share the cache of deserializers, so that the effect of one call shows only after reads for a class made by another.", "anchors": ["strong_typing/inspection.py:create_data_type", "strong_typing/deserializer.py:_get_deserializer"]}
