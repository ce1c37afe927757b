# Formal model of strong_typing: design

The library under study is `/repo/strong_typing` (Python, about 4900 lines).  This directory holds a Lean 4 model of it and
machine-checked proofs of the properties listed in `properties.jsonl`.  `MANIFEST.json` maps each property to the theorems
that establish it.

## 1. Layout

* `lean/Verif/Model/`: executable, total definitions that mirror the Python code, function by function.  Every definition
  cites file and lines of `/repo` (or of the CPython 3.11 standard library, where the library delegates to it).
* `lean/Verif/Spec/`: small independent specifications (grammars, typing relation, graph notions, JSON Schema validity, ...).
* `lean/Verif/Lemmas/`: helper lemmas; no property is claimed there.
* `lean/Verif/Props/`: property theorems, one file per property or group, each with `example`s showing that the hypotheses
  are met by a non-trivial case, and with witnesses for the places where the code violates the English claim.
* `seeded/`: tests of the theorems against wrong programs.  `seed.py` edits a copy of the model, rebuilds it and reports
  which theorems no longer hold; `LOG.jsonl` has one line per attempt.
* `conformance/`: a test of the trusted base.  `run.py` compares the definitions that stand for the Python standard library with
  CPython 3.11 on random inputs (section 7).

Naming: a theorem is called `Cnn_...`.  The suffix `_partial` marks a theorem that covers only part of the English claim
(its comment says what is missing); `_fails`, `_violated` and similar names mark witnesses that the claim is false for the
unchanged code.

## 2. Modelling conventions

* A Python `str` is a `List Char` (`Str`), so lone surrogates are not represented.  A Python `int` is `Int` (or `Nat` where it
  cannot be negative).  A Python `float` is a sign, a mantissa and an exponent, or an infinity, or NaN; conversion of `int` to
  `float` rounds half to even and overflows as CPython does.
* Exceptions are values: functions return `Except Err a`.  `Err` distinguishes exception classes, not messages.
  `Err.outOfModel` marks inputs that the model does not cover; theorems never conclude anything from it.
* A Python `dict` is an association list in insertion order with distinct keys (a predicate, assumed of inputs, proved of
  outputs).  A Python `set` is a list in (arbitrary, fixed) iteration order with pairwise different elements; where the code
  iterates over a set of strings, the order is a parameter of the environment (`Env.setOrder`, any permutation).
* Type annotations are a first-order syntax `Ty`; class and enumeration definitions live in an environment `Env`, so that
  recursive and mutually recursive classes are covered.  Theorems quantify over all environments.
* User code reachable through hooks (`to_json`, `from_json`, default factories, predicates, dependency functions, transforms)
  is an arbitrary function parameter.
* Loops and recursions whose termination is not structural (cyclic classes, work lists) are computed with a bound that
  is proved sufficient, or described by an inductive relation; divergence is `Err.recursion`.
* Process-wide state (the deserializer cache) is modelled as a state machine over the pure parser, and concurrent use as a
  transition system with arbitrary interleavings.

## 3. Properties: what is modelled and how it is proved

| Id | Model | Method | Status |
|----|-------|--------|--------|
| C01, C02 | Duration: `TimeDeltaSerializer`, `TimeDeltaDeserializer` (the regular expression as a scanner) | decimal printing/reading lemmas; equivalence with an independent grammar | partial |
| C03, C04 | Base64: encoder and strict decoder by groups of three bytes | induction on groups | proved, partial |
| C05-C07 | DateTime: `isoformat`/`fromisoformat` of CPython plus the Z rewriting | symbolic evaluation over digit lists | partial (C05, C07), proved |
| C08 | Uuid: printing and `UUID(hex)` | hexadecimal digit lemmas | proved |
| C09 | Ip: printing and parsing of CPython `ipaddress` | split/join lemmas; case analysis on the zero pattern of the hextets | proved |
| C10 | Deserializer: scalar deserializers | case analysis on all JSON values | partial |
| C11 | Serializer, Deserializer | induction on the typing derivation, over an explicit class of invertible types | partial |
| C12 | Deserializer | induction on JSON value and type | proved |
| C13, C14 | Serializer (dynamic and static) | induction on values | partial, proved |
| C15-C20 | Deserializer: containers and classes | equational characterisation, induction on lists | proved |
| C21-C25 | Deserializer: unions, tagged unions, literals, enumerations | exact characterisations (iff) | partial (C21, C22, C24, C25), proved |
| C26, C27 | Mapping, Serializer, Deserializer, Schema | case analysis; `iff` for agreement of the three names | proved, partial |
| C28, C29 | Cache: the deserializer cache as a heap of mutable objects | refinement to the pure parser over all histories | partial |
| C30, C31 | Topological: `topological_sort` | invariant of depth-first search | proved |
| C32, C33 | Collector: `TypeCollector`, `type_topological_sort` | closure invariants | partial, proved |
| C34 | Schema: the generator; Spec/JsonSchema: a validator | generated documents are characterised; induction on the value | partial |
| C35 | Schema: definitions work list | recursion principle for schemas that are made; invariant of the loop; graph of inlined classes | partial |
| C36 | Catalog: `TypeCatalog`, `register_schema` | invariants over histories of registrations | partial |
| C37 | Flatten: `SchemaFlattener` | induction on schemas | partial |
| C38 | ClassDef: `integer_range_to_type`, integer schemas | arithmetic | partial |
| C39, C45 | EnumBuild: member names, `enum` of CPython as far as needed, `extend_enum` | induction | partial |
| C40, C41, C51 | Docstring: parser, printer, checks, attachment of types | line-level model, induction; exact characterisation of errors | proved (C40, C51), partial (C41) |
| C42-C44 | Inspection: `is_generic_instance`, `check_recursive`, (un)wrapping of types | structural induction | partial |
| C46 | JsonText: `json.dumps` with compact separators, `json.loads` | printer/parser induction; independent grammar of string literals (Spec/Spelling) | proved |
| C47 | TypeName: `TypeFormatter` | unambiguity by induction | proved |
| C48 | Serializer construction with a bound on nesting | termination iff no class leads back to itself; divergence proved; exact condition for the existence of a serializer (`C48_exact`) | partial |
| C49 | Threads: interleavings over the cache | invariants over all interleavings | partial |
| C50 | Schema: `_metadata_to_schema`, auxiliary types | arithmetic on exact numbers | partial |
| C52 | Serializer, Deserializer: `to_json`, `from_json` | positions in values and data, induction on them; comparison of programs that differ in such classes | partial |
| C53 | ClassBuild, SchemaNode: `schema_to_type`, reading of schema documents | relation between schema and type, kept by growing environments; induction on the derivation; for schemas without unions, invariants on types and names | partial |
| C54 | the generator of C34 followed by `schema_to_type` of C53 | from C13, C34 and C53; generated documents have distinct keys.  For a described set of programs the type is made: induction on types, invariants over the definitions in alphabetical order, and a relation between the two programs that gives a round trip in both directions | partial |
| C55 | ClassBuild, SchemaNode | for documents that are made: induction on a description of buildable schemas, with an invariant on the names in the module; for documents that are not: inversion of reading schemas as nodes, induction on where the fault is | partial |
| C56 | Schema, Catalog | table of the keywords of the meta-schema with the form of their arguments; induction on types, nesting of classes and rounds of the loop over definitions | partial |
| C57 | SchemaText, Docstring | the generator with text follows the generator without it, for any relation that its steps respect; schemas that are equal apart from text are such a relation, as is equality; removing text keeps validity (induction on the depth of validation) | partial |
| C58 | TypeName: `Annotated`, auxiliary types | C47 by the same induction; the auxiliary type is found by a finite table | partial |
| C59 | ShortName: `python_type_to_name` | names are words joined by two underscores, which is injective for plain names | partial |
| C60 | Deserializer, Serializer together | induction on document and type; classes by comparing what each field is read from and written to | proved |
| C61 | FlattenDoc: `flatten_schema` from document to document | the tree of the document is related to the tree of the object read (C60), flattening commutes with writing, then C37 and C11 | proved |
| C62 | the validator and the generator of C34; the deserializer | the meaning of generated schemas (from C34) and the exact conditions under which classes, unions and containers are read (C12, C17, C21, C22); induction on the size of the data, since classes may be recursive | partial |
| C63 | TypeHelpers: tests of types, `typing.get_args`, unwrapping of containers and literals, lookup of fields | case analysis on types; induction on the fields; the meaning of types is that of C12 | partial |
| C64 | Deserializer, two programs | transport of a reading from one program to the other: induction on the size of the data and on the type, for both directions at once; types without classes are read the same by both; tags of unions are the same in both; composed with C11 and C13 for data that was written | partial |
| C65 | Schema, validator of C34 | `Admits` (Spec/Admits.lean) defines the JSON values of a type by recursion on the value and the type, without schemas and references; equivalence with the validator on the generated document by induction on the size of the value and on the type; that the validator comes to a result is C34's termination lemma | partial |
| C66 | Schema, two programs | transport of `Admits` from one program to the other, in both directions by one lemma; joined with C65 for both documents | partial |
| C67 | Modules, Docstring | membership and order of a filtered and sorted list; lookups in a merged dictionary; the round trip of C40 for the descriptions | partial |
| C68 | Deserializer, Scalars and text codecs | induction over the document: every error of `loads` is in an inductively defined set of exceptions of the type; induction over that set: a document that raises the exception; errors of all text codecs by cases | partial |
| C69 | Serializer, Deserializer, JsonText | C11 and C46 composed; numbers of the document traced to the value by an invariant of the serializer; induction over the objects written to a file | partial |
| C70 | Schema | least relation closed under the rules of the generator; sets of classes with a schema at depth n grow until they are stable, at the number of classes at the latest; invariant of the loop over definitions | partial |
| C71 | Serializer | relation between a value and the parts visited with their types, faults of single parts; errors of each loop traced to an element; strong induction on the size of the value; C14 for the criterion without types | partial |
| C72 | Inherit: class statements, method resolution order, type hints, fields of data classes; Serializer | invariant of the classes of a program, kept by each class statement (fields come from annotations of classes in the order; the linearization keeps the orders of the bases); lemmas on updated dictionaries; C11 for reading back | partial |
| C73 | JsonTypes: types with names in place of types, looked up in a module; reading, and schemas of the types in core.py; Serializer, Deserializer | induction on JSON values; the schema's check unfolded one level at a time, with enough depth for all parts | partial |
| C74 | Deserializer, two programs | a relation on types that says how a type is widened (Spec/Relax); induction on the size of the data and on the relation; a member of a union that comes before the one that reads the data refuses it by the kind of the JSON value; composed with C11 and C13 for data that was written | partial |
| C75 | Deserializer, two iteration orders of sets | the program with another order (Spec/Seed); creation by induction on types and C23; unions with one tag by equality of deserializers and of the parts of the cache that they refer to; several tags by induction on the size of the data, using that the member that reads the data has checked all of its tags | partial |
| C76 | Serializer, two objects | Python `==` and equality of JSON values as relations (Spec/Equal); induction on the derivation that the objects are equal, with C14 for the members of classes and injectivity of the conversion of keys for dictionaries; values of types without untyped parts meet the hypotheses (`C76_tidy`), and what `set` treats as equal is equal (`C76_eq`) | partial |
| C77 | Creation of deserializers with the cache | faults as an inductive predicate on types (Spec/Reader); invariant of the cache: every entry of a class that is not under way belongs to a class whose member types are supported and lead to classes with entries; by mutual induction on the type and on the number of classes without entry every step keeps the invariant, only adds entries, and fails only with the two errors and only in the presence of a fault | proved |
| C78 | Cache of deserializers, reading | option of each class as a function of the history (Spec/Options: `inForce`, by reachability only); invariant of the cache over the history: its entries are those of the canonical cache with these options, and it has entries for exactly the classes reached; each creation adds entries with its own option only; reading depends only on the entries of classes reached | proved |
| C79 | Reading, schema generation, validation | liberties of the reader as an inductive predicate on types and data (Spec/Liberal: `Lax`); by induction on data and type, data that is read and takes no liberty is of the type (`Admits`, Spec/Admits), hence valid by C65; by induction on `Lax`, data that takes a liberty is not of the type if members of unions read what they admit (`Inherited`), which is so without unions, and by C62 for the types there; so `validate_object` returns iff `json_to_object` does and no liberty is taken | partial: IP addresses, overlapping unions, keyword names, `from_json`, large key enumerations (violated there) |
| C80 | Annotations: evaluation of texts by `get_type_hints` and by `evaluate_type`, writers of types and of the fields of a class; the parser is a parameter | the type an annotation means as a function of namespace and depth (Spec/AnnMeaning: `Means`); by induction on the depth, the reader finds it; by induction on the annotation, the writer finds a writer for it if it sees all texts (`Seen`), and by induction on the depth, only then; for the fields, invariant of the dictionaries over the order of the classes | partial: the names must stand for the same where the field is declared and in the module of the class that is written (violated otherwise) |
| C81 | Duck: `generate` of all serializers for any object, with a bound on the nesting of calls | relation between an object and the parts visited with their types (`DuckStep`, `DuckPart`), faults of single parts (`DuckFails`), what is not modelled (`Outside`); there is a bound on the nesting for every object and type, by induction on both; errors traced to a part by induction on the bound; comparison with Serializer loop by loop | partial: types are not tested, so objects of other types are written (violated); exact condition proved |
| C82 | Aliases: `_get_deserializer` with names, context and cache, evaluation of forward references, reading with deserializers found in the cache, with a bound on the nesting of calls | replacement of names to a depth (`Unfolds`, Spec/Aliases); invariant of the cache (`AHeap.Sane`) over all calls; creation ends as every nested creation of a name leaves fewer names without entry; reading equals reading for the replaced type by induction on the replacement | partial: no expressions in texts, no names directly within `Annotated`, no unions of names of classes with tags (violated otherwise) |
| C83 | ScopedName: the formatter with context and `type_transform`, with a bound on the nesting of calls | replacement of names as a relation (`NTy.Expanded`), the expression to be shown (`NTy.shown`), its text as in TypeName; induction on the bound, and on the type for names of the context (`NTy.Closed`); unambiguous by C47 | partial: names of `None`, names directly within `Annotated`, and `Annotated` with `type_transform` are left out; the transformation is not applied to texts, and recursive expressions have no text (violated) |
| C84 | AnnCollect: `TypeCollector.run` on annotations with texts (programs as in Annotations), with a bound on the nesting of calls | meaning of annotations (`Means`, as in C80), types of members as `get_type_hints` has them; the collection follows that of Collector for a program with the same classes in its members, so C33 applies | partial: annotations must have a meaning, without `None` in place of a type, and names in inherited members must stand for the same in the module of the derived class (violated otherwise) |
| C85 | AnnInstance: `is_generic_instance` on annotations with forward references, `is_type_like`; Python's `isinstance(obj, cls)` is a parameter | meaning of annotations (`Means`, as in C80), objects of a type as an inductive relation; induction on the annotation | partial: names must be known to the library and stand for classes, no texts in `list` etc., no `\|`, `Annotated`, `Literal` and tuples of fixed length (violated otherwise); `is_type_like` turns down texts |
| C86 | ClassBuild: program and attributes of the module before and after `schema_to_type` | types that are new and names for them (Spec/ModuleTypes); what a step adds as a relation that can be composed (`Enlarges`), by induction on the node and on the definitions | partial: no classes of other modules in the module, no definitions of types of the library, no two types made with the same name (violated otherwise) |
| C87 | ClassBuild: two runs of `schema_to_type` with the same program and different attributes of the module | references to definitions that come before, names that a document leaves to the module (Spec/ModuleBefore); relation between the states of the two runs (`Alike`), by induction on the node and on the definitions | partial: only the names that the document leaves to the module matter (`C87_types`, `C87_errors`, for all documents); nothing in the module matters if references in definitions are to earlier definitions and all others to definitions (violated otherwise) |
| C88 | ClassBuildLeft: `schema_to_type` with the program and the module as they are after a return or an exception; shown to give the results of ClassBuild (`C88_results`) | documents without definitions, objects and enumerations (Spec/ModuleLeft), names for types (Spec/ModuleTypes); induction on the node and on the definitions, with the relation of C86 | partial: nothing is left behind by flat documents and by documents with other keywords, nor by definitions after the first that fails; otherwise only types with names for the document (full statement violated) |
| C89 | DataType: `create_data_type` and series of its calls, with the serializers, deserializers and cache of the other models | names of fields, declarations (Spec/DataType); induction on the series of declarations, round trip by C11, earlier reads by C28, entries of the cache that stay | partial: acceptance, errors and contents of the classes for all declarations without names that start with two underscores; reads for classes with different names (violated otherwise) |

Not expressible in this model: wall-clock performance, memory consumption, the recursion limit of the interpreter, content of
error messages.

## 4. Where the code disagrees with the claim

Each item has a theorem with a concrete witness.

* C01: durations with negative days are written (`P-1D...`) but cannot be read.
* C02: one trailing newline is accepted (`$` in the regular expression); numerals of more than 4300 digits raise.
* C04: superfluous padding is skipped (`AAAA=` is read).
* C05, C07: an offset of less than a second is written but read as UTC.
* C10, C24: `True` is accepted for `int` and `float`, and for `Literal[1]`.
* C11: values are not returned unchanged for unions whose earlier member also accepts the text, `None` in a field with another
  default, `None`-typed fields and `None` in named tuples, aliases in named tuples and in string annotations; `None` among
  the items of a list of optional members of an enumeration is written, but reading it raises `ValueError`.
* C12: default values are never checked against the type of their field.
* C13: `null` is written for `None` in an untyped named tuple and for an enumeration member with value `None`; two fields with
  the same alias lose a value.
* C14, C48: there is no static serializer for a class that refers to itself directly (infinite recursion), although dynamic
  serialization works.
* C48: names of classes are not looked up within `Annotated`, nor names of enumerations for the keys of dictionaries, when the serializer
  of a data class is created: a field `Annotated[list["Item"], Alias("items")]` can be read, but writing raises `TypeError`
  (`C48_names_fail`).
* C19 (order): the order of properties matters for untagged unions of dictionaries (outside the claim).
* C21: only `JsonKeyError` and `JsonTypeError` of a union member are caught; `JsonValueError` and `ValueError` end the search.
* C22: tags that are arrays or objects raise `TypeError`; contradicting tags depend on set order; tags with an alias are not
  found; tags that are enumeration members are not usable.
* C27: the schema lists `from_` where the serializer writes `from`; aliases in named tuples are not read; aliases in string
  annotations of data classes are read but not written.
* C28, C29: the cache ignores `skip_unassigned` (the option of the first use stays); a failed build leaves a half-built
  deserializer behind; classes with the same module and name are mixed up.
* C32: `graph[new_type] = set()` discards edges found before; `_ROOT` appears in the result.
* C34: see the theorems `C34_*_fails`: IP addresses and bare containers have the schema of an object; `Optional` other than of
  a field and literals with several values have no schema; members of `Union[int, float]`, `Union[str, bytes]` are not told
  apart; `None`-typed fields are required but not written; `to_json` is ignored; lengths of `bytes` refer to the Base64 text; the
  format `time` demands an offset; enumeration values in key patterns are not escaped; a naive date-time as default raises.
* C35: string annotations and `list["B"]` give dangling references; `Optional["B"]` met first raises `NameError`; an annotated
  registered recursive class does not end; a slash in an identifier makes a reference that cannot be resolved.
* C36: two types with the same short name share an identifier.
* C37: colliding names overwrite each other; members required by an optional nested object become required; nested objects
  without properties vanish.
* C38: the format wins over the range; an empty enumeration raises; bounds beside an enumeration are ignored.
* C39, C45: values whose names collide are dropped; `""` and `"mro"` raise; names private to the class vanish.
* C40: a long description that starts with a colon, or without a short description, does not survive.
* C41: an entry without second colon raises `ValueError`; documented inherited members are rejected.
* C42: tuples are compared up to the shorter length; `Annotated` and `Literal` raise `TypeError`.
* C43: items of a container given at the top and IP addresses are not tested; annotated fields raise `TypeError`.
* C44: `unwrap_union_types` raises for an annotated union that `is_type_union` accepts.
* C25: members of an enumeration with `to_json` are not found again (`C25_to_json_fails`).
* C46: integers of more than 4300 digits raise `ValueError`.
* C49: a deserializer is stored before it is built, so that another thread can fail with `AttributeError`.
* C50: schemas of fixed-width integers have only a format; of several ranges the last wins; `Length` is ignored; the
  `multipleOf` of decimal digits is a float.
* C52: `from_json` of a named tuple is ignored, although its `to_json` is used.
* C53: `1.0` is valid for `integer` but not read as `int`; a property `from_` is read under `from`; enumeration values with the same
  safe name are dropped; the `ValueError` of an enumeration ends the search in a union.
* C54: definitions are made in the order of their names, so that a definition cannot refer to a later one or to itself
  (`AttributeError`); the document of a registered class is a reference, from which no type is made; schemas of `bytes`, `set`,
  `tuple`, `dict` and `None` have keywords that are not known (`JsonKeyError`); `None` in a field `Optional[int] = 5` is read as 5 by the new type.
* C55: a definition that refers to a later one gives `AttributeError`; a definition of a plain type such as `str` gives `TypeError`
  because the module of built-in types cannot be set, of a list `AttributeError`.
* C56: `classdef_to_schema` raises `TypeError` for `tuple[()]` (`prefixItems` is empty), for `dict[E, T]` if `E` has more than four members
  whose values are no regular expression (they are not escaped), for `Precision` with 324 or more decimal digits (`multipleOf` is `0.0`),
  and for a class in which two required fields have the same alias.
* C57: no schema is made (`TypeError`) for a data class whose documentation string names a parameter that is no field of its own; with
  `use_descriptions=False`, properties have descriptions all the same, and documentation strings are read all the same.
* C58: the annotations of an auxiliary type are looked for as a set: `Annotated[float, Storage(8), Storage(4)]` and
  `Annotated[float, Storage(4), Storage(8)]` are both written `Annotated[float32, Storage(8)]`, and if only the order differs or an
  annotation is repeated, `Annotated[float32, ]` is written, which is not a type for Python.
* C59: a class `List__int` has the name of `list[int]` with `force`, `dict[A__B, C]` that of `dict[A, B__C]`, and `tuple[()]` without
  `force` that of `tuple`; `force` is not passed on, so that collections of collections have no name.
* C60 is about document types.  Beyond them: a set is written without repetitions, a time as another text than the one read, an integer
  beyond 2^53 read as `float` as another number, and a named tuple with an alias under another name (witnesses).
* C61: schemas of `dict` and `set` that the library makes cannot be flattened (`JsonKeyError`), and a bound that is too large for `float`
  raises `OverflowError` (witnesses).
* C62: see the theorems `C62_*_fails`: what the schema admits and the reader refuses.  Floats such as `1.0` for integers; texts that are
  not Base64 for `bytes`; objects for IP addresses; unknown properties of a class without fields; `from_` for a field of that name;
  `null` for a field of type `None`; optional fields of named tuples left out, and their aliases; dictionaries with integer keys and
  sets of lists, for which there is a schema but no reader; a union in which a member raises `ValueError`; keys with a line break at
  the end for an enumeration of more than four members; integers too large for `float`.
* C63: `is_named_tuple_type` is false for an annotated named tuple (`C63_named_tuple_fails`); `dataclass_field_by_name` returns a field
  without its default (`C63_default_fails`).
* C64: in a union without tag another member may read the data once it has a new field (`C64_union_fails`); a literal field in all
  members turns a union into one with tags, which then requires the tag (`C64_literal_fails`); new fields of named tuples are
  required in spite of a default (`C64_named_tuple_fails`); data with a skipped property of another type is refused
  (`C64_skipped_fails`).
* C65: types of different modules with the same name that are both registered have one definition for both, so data that is valid
  while they are not registered is refused (`C65_same_name_fails`); `TypeCatalog.add` refuses the same type twice, but not the
  same name.
* C66: a new field with a default whose type is not `Optional` is required by the schema, though the reader does without it
  (`C66_default_fails`); a member of a union may come to match data of another, and `oneOf` refuses both (`C66_union_fails`);
  the schema of a class without fields accepts any object until it gains a field (`C66_no_fields_fails`); data with a new
  property is refused by the earlier schema (`C66_new_property_fails`), there is no counterpart of skipping unknown properties.
* C67: a class with a second name in its module is listed twice (`C67_alias_fails`); exceptions that a module imports are listed as
  declared in it (`C67_imported_fails`); a name to which the module gives another meaning still stands for the built-in exception
  (`C67_shadow_fails`); a long description without a short one is not part of the full description (`C67_long_only_fails`).
* C68: the documentation of `json_to_object` (serialization.py:63-65) lists `TypeError` for types without deserializer,
  `JsonKeyError` and `JsonTypeError`.  Data that does not fit also raises `ValueError` (texts with a format, enumerations),
  `JsonValueError` (a required property that is `null`, tuples of another length, durations, date-times without time zone),
  `OverflowError` (large numbers, long durations) and `TypeError` (members of sets that are not hashable, tags that are arrays or
  objects): `C68_undocumented`.  Types for which no deserializer can be created raise `JsonTypeError` instead of `TypeError` when keys of
  a dictionary are not texts and when tags do not tell alternatives apart.
* C69: besides the exceptions of C11, integers of more than 4300 digits are written as JSON, but have no text: `json.dumps` raises
  `ValueError` (`C69_long_integer_fails`).
* C70: types that can be written and read have no schema if they contain `Optional[T]` other than as the type of a field
  (`AttributeError`, `C70_optional_item_fails`), literals of several values (`C70_literals_fail`), enumerations with values of several
  types (`C70_mixed_enum_fails`), or if a class that is not registered refers to itself (`RecursionError`, `C70_not_within_itself`).
* C71: the first key of a dictionary without declared key type decides how all keys are written: `{E.A: 1, "x": 2}` raises
  `AttributeError`, the same entries in the other order are written (`C71_key_order_fails`).
* C72: with several base classes, or a class without decorator derived from a data class, a member may be written with the type given
  by one class and read with that of another (`C72_diamond_fails`, `C72_undecorated_fails`); annotations added by a class without
  decorator are neither written nor read.  Static and dynamic serialization (C14) differ for objects of derived classes
  (`C72_list_loses`).
* C73: the schema of `JsonType` and `StrictJsonType` has `oneOf` with both `integer` and `number`, so it rejects every value with a
  whole number in it, also the example in the schema itself (`C73_integer_fails`).  `json_to_object(StrictJsonType, …)` raises
  `NameError`: `json_to_generic` takes the module of its caller, which is `json_to_object` in `strong_typing.serialization`, where only
  `JsonType` is imported (`C73_strict_object_fails`).  `JsonObject` and `JsonArray` are read from `{}` only (`C73_placeholder_fails`).
* C74: an alternative placed before the type that was there captures its data (`C74_before_fails`); a field of one class that gets a
  wider type captures data of another class in a union without tag (`C74_inner_fails`); `float` in place of `int` changes the value
  (`C74_float_fails`).
* C75: a union with two tags, one of which has members of an enumeration as its values, accepts data in one process and refuses it in
  another, depending on which tag is looked at first (`C75_enum_fails`); inside a union without tag this changes the class of the object
  that is read (`C75_object_fails`).  The same happens if a tag has another name in JSON (`C75_name_fails`), and with plain tags inside
  a union without tag, where the kind of the error decides whether the next member is tried (`C75_nested_fails`, `C75_error_fails`).
* C76: equal aware date-times and times with different UTC offsets are written differently (`C76_datetime_fails`, `C76_time_fails`);
  equal sets are written in their order of iteration (`C76_set_fails`); a named tuple is written as an object, the equal tuple as an
  array (`C76_tuple_fails`).  `UntypedDictSerializer` chooses the conversion of all keys by the first key, so one of two equal
  dictionaries with members of an enumeration and strings as keys is written and the other one raises `AttributeError`
  (`C76_mixed_fails`); `{1: "a", "1": "b"}` loses the entry that was filled in first (`C76_clash_fails`).
* C77 is not violated as stated, but the parts of the library disagree: a bare `list` has a serializer and no deserializer
  (`C77_written_fails`), a class that refers to itself has a deserializer and no serializer (`C77_recursive_fails`), and
  `list[Optional[int]]` has both and no schema (`C70_optional_item_fails`).  After a creation that has failed, the equivalence is
  lost, because the class stays in the cache (`C77_after_failure_fails`, `C29_poisoned`).
* C78 describes what is left of C28: options are those of the first call that led to the class.  A call may thus read outer objects
  with one option and inner ones with the other (`C78_mixed`).
* C79: the liberties (`C79_bool_fails`, `C79_format_fails`, `C79_range_fails`, `C79_twice_fails`, `C79_null_fails`,
  `C79_default_fails`) are parts of the claim as stated; the schema is moreover stricter than the reader for unions whose members overlap
  (`C79_union_fails`), for IP addresses (`C79_ipv4_fails`), for names with a trailing underscore (`C79_keyword_fails`), and when
  unknown properties are skipped (`C79_unknown_fails`).
* C80: the local variables of `evaluate_type` hide classes of the names `typ` and `module` (`C80_typ_fails`, `C80_module_fails`);
  the writer evaluates inherited annotations in the module of the derived class, and may take another class of the same name
  (`C80_inherited_fails`, `C80_inherited_name_fails`); it does not evaluate texts of texts (`C80_twice_fails`), texts in `Annotated`
  (`C80_annotated_fails`), texts as keys of dictionaries (`C80_key_fails`), nor take `None` for a type (`C80_none_fails`); names in the
  class itself are known to the reader only (`C80_nested_fails`), and hide built-in names from it (`C80_hidden_fails`).
* C81: any object in place of a `bool`, `int`, `float`, `str` or literal is passed on as it is (`C81_scalar_fails`, `C81_literal_fails`),
  so that what is returned need not be JSON (`C81_json_fails`); any object in place of `None` is dropped (`C81_none_fails`), as are
  surplus items of tuples (`C81_tuple_fails`); a string in place of a list is written as the list of its characters
  (`C81_text_fails`); an instance of another class is written if it has the attributes (`C81_class_fails`), a date with a time in
  place of a date with its time (`C81_date_fails`); a key that is no string is not converted (`C81_key_fails`).
* C82: `create_deserializer` without a context reads no name (`C82_context_fails`), `json_to_object` without one looks for names in
  strong_typing.serialization, so those of the caller raise `NameError` (`C82_object_fails`; `json_to_generic` takes the caller's
  module); a name is not read directly within `Annotated` (`C82_annotated_fails`) or
  the name `typ` (`C82_typ_fails`); for a type that refers to itself in an expression (`Tree = Union[int, "list[Tree]"]`) the creation
  of the deserializer does not end (`C82_expression_fails`), for `Loop = Union["Loop", int]` the reading does not (`C82_loop_fails`);
  `Union["A", "B"]` is read without regard to tags (`C82_tags_fails`); after an exception in the creation the name stays unusable
  (`C82_error_fails`: `AttributeError`).
* C83: without a context, a text that is not an identifier raises `ValueError` (`C83_context_fails`); the text `typ`
  (`C83_typ_fails`) and types that refer to themselves in an expression (`C83_recursive_fails`) end in a `RecursionError`;
  `type_transform` is applied to `List["A"]` (a forward reference) but not to `list["A"]` (a text) (`C83_transform_fails`).
* C84: names in inherited members are looked up in the module of the derived class, so another class is found
  (`C84_inherited_fails`) or none (`C84_inherited_name_fails`); the member `x: None` of a data class raises `TypeError`
  (`C84_none_fails`); a class named `module` or `typ` is not found (`C84_module_fails`, `C84_typ_fails`: `RecursionError`); for
  `Tree = Union[int, list["Tree"]]` the collection does not end (`C84_recursive_fails`); texts in the type itself need a module
  (`C84_context_fails`: `ValueError`).
* C85: names are evaluated in the library: a class of the caller is not found (`C85_context_fails`: `NameError`) or another one is taken
  (`C85_hidden_fails`), and the names `obj`, `typ`, `fwd`, `identifier` are those of variables (`C85_variable_fails`); no object is of
  the type `ForwardRef("list[int]")` (`C85_generic_fails`), and `None` is not of type `ForwardRef("None")` (`C85_none_fails`);
  `list["int"]` (`C85_text_fails`), `int | str`, `Annotated` and `Literal` (`C85_forms_fail`) raise `TypeError`, also as members of a union ahead of one that fits
  (`C85_order_fails`); `typing.List` raises
  `ValueError` (`C85_bare_fails`); tuples are compared up to the shorter length, as in C42.
* C86: `__module__` of a class is set to the name of the module when a definition refers to an imported class (`C86_import_fails`), and
  even that of `uuid.UUID`, `ipaddress.IPv4Address` and `ipaddress.IPv6Address` when a definition has the format (`C86_library_fails`);
  classes for the members of `oneOf` have the same name, and only the last is found (`C86_choice_fails`); a definition `A__p` is replaced
  by the class for the property `p` of `A`, to which later references then lead (`C86_joined_fails`).
* C87: a reference in a definition to one that follows leads to what had this name in the module before (`C87_stale_fails`), and is an
  `AttributeError` if there is nothing of this name (`C87_missing_fails`).
* C88: types made before the exception stay in the module: a class of the module is replaced by that of a definition although the call
  fails (`C88_replaced_fails`), classes for properties stay when a later property fails (`C88_property_fails`), and so does an enumeration
  whose default is not one of its members (`C88_default_fails`).
* C89: two classes made with the same name are taken for the same class once one of them has been used to read a document, since all of
  them are of the module `types` (`C89_same_name` for all such classes, with `C89_same_name_fails` as a witness).

## 5. Simplifications

General: except in C72, no inheritance among modelled classes and no instances of subclasses; no `InitVar`, `init=False`, `__post_init__`; plain
`Enum` without mix-in types, with scalar values; no `bytes` literals; looking up NaN in an enumeration is out of the model;
`X | Y` is not distinguished from `Union[X, Y]` (except in C47); the typing relation does not regard `bool` as a subtype of `int`.

Per model:
* DateTime: time zones are fixed offsets; texts are read as the C code of CPython 3.11 reads them (UTF-8, a NUL ends the text).
* Base64: texts are read as the C code of CPython 3.11 reads them.
* Deserializer: the error of a class is that of its first failing field; sets keep list order.
* Cache/Threads: in the thread model, parsing is one atomic step, an assignment is atomic, and all threads use the same option.
* EnumBuild: `_sunder_` names with a meaning for `enum` are out of the model; the Unicode classes of `\w` are a parameter.
* Inspection: union members that become equal by stripping annotations are not merged; attributes of plain objects without
  annotations are not members in C43.
* Collector: string annotations are taken as resolved (not so in AnnCollect); library classes have no annotated members; `None` and literal values are
  not types.
* JsonText: text of finite floats is a parameter (`repr` and `float` assumed inverse); the strictness of the C accelerator is
  followed; `json_dump` is described when it does not raise.
* TypeName: no forward references, type variables, transforms (these are in ScopedName, which has no `value_transform`); annotations are objects of `typeannotation` classes with arguments
  `None`, booleans, integers, strings.
* ShortName: the value `None` as argument of a built-in generic (`list[None]`) is taken as `type(None)`; literals have values.
* Flatten: nodes that are not objects, and copied members, are opaque.
* ClassBuild: doc strings of the new classes are left out, and what is left behind in the module after an exception is in ClassBuildLeft (C88) only; `Decimal`,
  `JsonType`, literals of floats and attributes whose names begin with two underscores are out of the model.  `typing` caches unions
  and takes unions with the same members for equal, so a union may come back with its members in the order of an earlier one; the
  model keeps the order in which they are given.
* Docstring: `inspect.getmodule` is a parameter; so is the table of exceptions, which is in Modules; exception messages are left out.
* JsonTypes: only type expressions made of the scalar types, lists, dictionaries with text keys, unions and names; texts in place of types are single
  names; the cache of deserializers is empty at first.
* Schema: titles and descriptions are in SchemaText (C57) only; `Decimal`, `Any`, `JsonObject`, `JsonArray`, `JsonType` (the last four are in C73), `type[T]` and literals of enumeration
  members are left out; only classes and enumerations are registered; names of classes are not visible in the namespace of
  schema.py; in the annotation of one field either all or no class names are forward references; the check against the
  meta-schema and the float `10 ** -d` are parameters; theorems which say that a document exists assume of the check that it accepts whatever
  is valid for the meta-schema (`AcceptsValid`), and for references and patterns that the string has the format demanded.
* JsonSchema: `jsonschema` is not available here; validation follows the standard (Draft 2020-12) for the keywords used, with format,
  pattern and multiple-of tests as parameters; percent-encoded references are not covered.
* MetaSchema: the published meta-schema is not available here either; its table of keywords was written from knowledge of it.
* Inherit: no `ClassVar`, `InitVar`, `KW_ONLY`, no class attributes without annotation, base classes are classes of the program;
  string annotations are taken as resolved.
* Annotations: the parser of Python is a parameter, and unions are not flattened; elsewhere in the model types are taken as resolved
  (`Ty.none` is `type(None)`, not `None`), which is what C80 is about.
* AnnInstance: `isinstance(obj, cls)` is a parameter; no subclasses of `list` etc.; `Any` is left out.
* Duck: what `str` returns, and which attributes objects of built-in types have, are parameters; instances of classes other than named
  tuples cannot be iterated; the rest of what is outside is listed in `Outside` (Spec/Duck).
* Aliases: one context; names are not keys of dictionaries; unions are not flattened; `None` is not the value of a name; what `eval`
  makes of texts that are not names of the context is a parameter; fields of classes are evaluated as in Annotations, so that a class
  is a type without names here.
* Modules: objects are numbers with a kind and a `__module__`; modules with `__dir__` or `__getattr__` functions are left out.
* DataType: the variant of `create_data_type` for Python 3.10 and later; slots are left out, and names of fields that start with two
  underscores are outside the model.

## 6. Trusted base

* The Lean 4.33 kernel.
* Axioms: of the 631 theorems in the manifest, 222 use `propext`, `Classical.choice`, `Quot.sound`; 279 use `propext`, `Quot.sound`;
  127 use `propext` only; 3 use none.  There are no other axioms, no `sorry`, no `native_decide`.
* The correspondence between the Python source and the Lean definitions, which is by reading, with the simplifications above; for the
  parts of the standard library it is also tested (section 7).
* Not modelled at all: `eval` in schema.py:105-116, `print_schema`, `json_schema_type`.

## 7. Corrections

Errors of the model itself that were found after they had been committed, and what they affected.

* `json_dump` (serialization.py:108-116).  The model left out the last line, `file.write("\n")`, and cited 108-115.  `C46_file` then
  said that the file gets exactly the text of `json_dump_string`, which is false for the code: a line break follows.  The definition and
  `C46_file` are corrected; `C46_file_lossless` and `C46_file_line` say what the line break means for a reader.  The other theorems of
  C46 are about `json_dump_string` and were not affected.  Found by comparing theorem and source again, not by the build: no proof
  can show that a definition misses a line of the source.  All citations were then compared with the extent of the functions cited;
  no other function was cut short.
* C25 was listed as proved, although the round trip assumes that the enumeration has no `to_json`.  It is now partial, with a witness
  (`C25_to_json_fails`).
* Base64 and ISO texts.  `b64Decode` rejected superfluous padding, as the documentation says, and `fromisoformat` followed the
  pure-Python module `datetime.py`.  What runs is C code, which differs: `b64decode("AAAA=", validate=True)` is accepted, UTC offsets of
  less than a second are read as UTC, and texts such as `12x+00:00` are accepted as times.  C04, C05 and C07 were listed as
  proved; with the right model they are false as stated.  They are now partial, with the exact behaviour (`C04_decode_iff`,
  `C05_read_back`) and witnesses (`C04_excess_padding`, `C05_fine_offset_lost`, `C07_fine_offset_lost`); C11 has a new hypothesis
  on offsets.  Found by running the model and the standard library (not the project) on the same random texts.

* Names of classes in annotations (`list["Item"]`).  The model of serializers took them as resolved everywhere.  They are resolved by
  `_get_serializer` only where the module of the class is passed on, which is not so within `Annotated` (serializer.py:492-493) and for
  key types (serializer.py:475-480).  Fields now say whether their annotation names classes (`FieldDef.fwd`), creation of serializers follows the code
  (`FieldDef.seen`), and `C48_exact` says for which types it succeeds.  Theorems that assume a program without such fields (`Mirror`, `Ground`,
  `FieldFor`) say so.  Found by comparing the model with the source again.

* Key types of dictionaries.  The model had one case for all classes other than `str` and enumerations, and gave them all the schema
  that only `int` has; the code raises `ValueError` for the rest (schema.py:382-383).  The theorem that generation succeeds
  (`C34_generates`) was stated for too many types.  `int` is now a case of its own, and `Schemable` excludes the rest.
  Found by comparing the model with the source again.

* Members of another enumeration.  `genEnum` applied the method `to_json` of an enumeration to the position of a member of any
  enumeration; the method of the code gets the member itself, about which the model knows nothing.  This is now outside the model.
  Only objects that do not have the declared type were affected, in C52 and C71, where `WriteFails` says the same now.  Found when
  the model was extended to such objects (C81).

The comparison is kept in `conformance/run.py`: the definitions that stand for the standard library (reading and printing of dates, times,
UUIDs, IP addresses, Base64 and JSON text; equality of times and floats; `float(int)`; `inspect.cleandoc`, `str.strip`, `str.split`,
`repr(str)`, `str.isspace`, keywords, identifiers; `enum.Enum`; the names accepted by `make_dataclass` and the classes it makes with slots; class statements with base classes,
`@dataclass` and `get_type_hints`; annotations with texts in them, evaluated by `get_type_hints` and by `eval` and
`ForwardRef._evaluate` as `evaluate_type` calls them) are evaluated by Lean and compared
with CPython 3.11 on random inputs.  No code of the project is run.  With 30000 inputs for each of 36 functions (annotations: 100000
programs each) there is no difference except for inputs that the model declares as outside.  For annotations results are compared
after nested unions are flattened and equal members merged.  Not compared are three things that the model does not tell apart:
`Annotated[5, 1]` (AttributeError in Python), `T = Annotated["T", 1]` (comparison of references does not end) and operands of `|` that
are merged unions.  This is a test of the trusted base, not a proof.
