{"id": "C01", "title": "Semantic id identifies an unnamed type", "statement": "Two types whose inner references are semantic ids and whose unnamed semantic ids are equal are the same type (same class, same fields, names, tags, order, lengths and sizing), unless the hash function collided.", "quantifier": "all pairs of well-formed types over semantic-id references; all hash functions", "why_tests_cant": "Injectivity of the byte string fed to the hash is a statement about all pairs of types.", "anchors": ["src/ast/id.rs: Ty::sem_id_unnamed, SemCommit for Ty, SemCommit for Sizing, SemCommit for Variant"]}
{"id": "C02", "title": "Named semantic id commits to the name and the type", "statement": "Two named library types without inline sub-types that have the same semantic id have the same type name and the same definition (up to which library an external reference names), unless the hash function collided.", "quantifier": "all pairs of names and inline-free library types; all hash functions", "why_tests_cant": "Injectivity over all pairs.", "anchors": ["src/ast/id.rs: Ty::sem_id_named", "src/typelib/id.rs: SemCommit for LibRef, InlineRef, ExternRef"]}
{"id": "C03", "title": "Semantic id commits to inline sub-types", "statement": "Two library types with different inline structure have different semantic ids unless the hash function collided (the documentation says the id commits to the memory layout, name and field/variant names).", "quantifier": "all pairs of library types including inline nesting", "why_tests_cant": "A collision of the pre-image needs two specially related types; sampling will not hit it.", "anchors": ["src/typelib/id.rs: SemCommit for LibRef", "src/ast/id.rs: SemCommit for EnumVariants, UnionVariants, NamedFields, UnnamedFields"]}
{"id": "C04", "title": "Named and unnamed ids live in disjoint domains", "statement": "The semantic id of a named type never equals the semantic id of an unnamed type unless the hash function collided.", "quantifier": "all named types and all unnamed types", "why_tests_cant": "Quantifies over pairs of types and byte strings.", "anchors": ["src/ast/id.rs: Ty::sem_id_inner"]}
{"id": "C05", "title": "Unnamed one-field tuples do not create a new id", "statement": "The unnamed semantic id of a one-field tuple equals the unnamed semantic id of the wrapped type (the code comment: 'for unnamed 1-tuples we must not produce a new sem id').", "quantifier": "all library types and all one-field wrappers around them", "why_tests_cant": "Ranges over all types and hash functions.", "anchors": ["src/ast/id.rs: Ty::sem_id_unnamed", "src/ast/ty.rs: Ty::as_wrapped_ty, TypeRef::as_ty"]}
{"id": "C06", "title": "Library id commits to name, dependencies and types", "statement": "Libraries with equal ids have equal names, the same dependency ids in the same order and the same list of type semantic ids, unless the hash function collided; conversely the id is a function of those alone.", "quantifier": "all pairs of libraries; all hash functions", "why_tests_cant": "Injectivity over all pairs of libraries.", "anchors": ["src/typelib/id.rs: TypeLib::id, SemCommit for TypeLib, SemCommit for Dependency"]}
{"id": "C07", "title": "Type system id commits to the set of types", "statement": "Type systems with equal ids contain exactly the same types under the same ids, unless the hash function collided.", "quantifier": "all pairs of type systems", "why_tests_cant": "Injectivity over all pairs of systems.", "anchors": ["src/typesys/id.rs: TypeSystem::id, SemCommit for TypeSystem"]}
{"id": "C08", "title": "Symbolic and compiled types get the same id", "statement": "The semantic id printed for a type of a symbolic library equals the semantic id of the same type in the compiled library.", "quantifier": "all symbolic types and all name indexes", "why_tests_cant": "Ranges over all types, nesting and indexes.", "anchors": ["src/typelib/id.rs: SemCommit for TranspileRef", "src/ast/id.rs: Ty<TranspileRef>::sem_id_named", "src/typelib/compile.rs"]}
{"id": "C09", "title": "Type definitions survive binary serialisation", "statement": "Decoding the strict encoding of any well-formed type (over semantic-id references, or library references with inline nesting) followed by arbitrary bytes returns the same type and leaves exactly those bytes unread.", "quantifier": "all well-formed types, all byte suffixes", "why_tests_cant": "Round trip over all types and suffixes.", "anchors": ["src/ast/ty.rs: Ty (strict tags)", "src/ast/encoding.rs", "src/typelib/type_lib.rs: LibRef, InlineRef, InlineRef1, InlineRef2"]}
{"id": "C10", "title": "Type decoding is canonical", "statement": "If a byte string decodes as a type, re-encoding the result gives back exactly the bytes consumed: no two different byte strings decode to the same type.", "quantifier": "all byte strings", "why_tests_cant": "Ranges over all inputs, mostly malformed ones.", "anchors": ["src/ast/encoding.rs: StrictDecode for UnionVariants", "src/ast/ty.rs"]}
{"id": "C11", "title": "Libraries survive binary serialisation", "statement": "Decoding the strict encoding of any well-formed type library returns the same library (and hence the same library id).", "quantifier": "all well-formed libraries", "why_tests_cant": "Round trip over all libraries.", "anchors": ["src/typelib/type_lib.rs: TypeLib, Dependency", "src/typelib/symbolic.rs: ExternTypes"]}
{"id": "C12", "title": "Type systems survive binary serialisation", "statement": "Decoding the strict encoding of any well-formed type system, symbol table or symbolic system returns the same object; decoding accepts only maps with strictly increasing keys.", "quantifier": "all well-formed type systems and symbol tables; all byte strings", "why_tests_cant": "Round trip over all systems.", "anchors": ["src/typesys/type_sys.rs: TypeSystem, TypeFqn", "src/typesys/symbols.rs: Symbols, SymbolicSys", "src/typesys/translate.rs: TypeSymbol"]}
{"id": "C13", "title": "Finalising reports every missing dependency", "statement": "After any sequence of library imports, finalize succeeds only if every dependency of every imported library was itself imported (before or after), and every absent one is reported.", "quantifier": "all sequences of imported libraries in any order", "why_tests_cant": "Ranges over all histories of imports.", "anchors": ["src/typesys/translate.rs: SystemBuilder::import, SystemBuilder::finalize"]}
{"id": "C14", "title": "A finalised type system is complete", "statement": "Every type referenced from a type of a finalised type system is itself part of that system (documented guarantee of TypeSystem).", "quantifier": "all sequences of imported libraries", "why_tests_cant": "Ranges over all library contents and histories.", "anchors": ["src/typesys/translate.rs: SystemBuilder::finalize, translate_inline", "src/typesys/type_sys.rs: TypeSystem"]}
{"id": "C15", "title": "Import order does not matter", "statement": "Importing the same libraries in any order produces the same type system (same ids, same types, same type system id) or fails alike.", "quantifier": "all lists of libraries and all permutations of them", "why_tests_cant": "All permutations of all lists.", "anchors": ["src/typesys/translate.rs: SystemBuilder::import"]}
{"id": "C16", "title": "Names resolve to the types they were declared for", "statement": "After finalize, every type name of every imported library resolves to the semantic id of that type, and looking the id up returns that qualified name; resolution and lookup agree.", "quantifier": "all sequences of imported libraries and all names", "why_tests_cant": "Ranges over all libraries and histories.", "anchors": ["src/typesys/symbols.rs: Symbols::get, Symbols::lookup, SymbolicSys::with, resolve, lookup, to_sem_id"]}
{"id": "C17", "title": "Extraction returns exactly the reachable types", "statement": "extract(ids) terminates for every type system and returns exactly the types reachable from ids by references, unchanged; it fails exactly when a reachable type is missing.", "quantifier": "all type systems (including cyclic and incomplete ones), all id sets", "why_tests_cant": "Quantifies over all reference graphs.", "anchors": ["src/typesys/type_sys.rs: TypeSystem::extract"]}
{"id": "C18", "title": "Extraction is idempotent and yields a closed system", "statement": "Every reference inside an extracted system resolves inside it; extracting the same ids again gives the same system; extracting fewer ids from it gives the same as extracting them from the original.", "quantifier": "all type systems and id sets", "why_tests_cant": "Quantifies over all reference graphs.", "anchors": ["src/typesys/type_sys.rs: TypeSystem::extract"]}
{"id": "C19", "title": "Extraction preserves value semantics", "statement": "For every id in the extracted set, typifying, serialising and deserialising any value against the extracted system gives the same result as against the full system.", "quantifier": "all type systems, id sets, values and byte strings", "why_tests_cant": "Needs all values and all systems at once.", "anchors": ["src/typesys/type_sys.rs: extract", "src/value/typify.rs", "src/value/encode.rs", "src/value/decode.rs"]}
{"id": "C20", "title": "Extending a system preserves value semantics", "statement": "Adding types under new ids to a type system never changes the result of typifying, serialising or deserialising a value whose types were all present before.", "quantifier": "all systems, extensions, values, byte strings", "why_tests_cant": "Needs all values and all systems at once.", "anchors": ["src/typesys/type_sys.rs: TypeSystem::extend", "src/value/typify.rs", "src/value/encode.rs", "src/value/decode.rs"]}
{"id": "C21", "title": "Compilation resolves every name", "statement": "If compiling a symbolic library succeeds, the compiled library has exactly the same type names, and each named reference became the semantic id under which the referenced type appears in the same compiled library.", "quantifier": "all symbolic libraries", "why_tests_cant": "All reference graphs and nestings.", "anchors": ["src/typelib/symbolic.rs: SymbolicLib::compile", "src/typelib/compile.rs"]}
{"id": "C22", "title": "Compilation of an acyclic library terminates and succeeds", "statement": "If every named reference is defined, references are acyclic and inline nesting is within the limit, compilation succeeds after at most as many passes as there are types, whatever the order of names.", "quantifier": "all symbolic libraries", "why_tests_cant": "Termination for all reference graphs.", "anchors": ["src/typelib/symbolic.rs: SymbolicLib::compile"]}
{"id": "C23", "title": "Compilation of cyclic or dangling references is reported", "statement": "A symbolic library whose types refer to each other cyclically, or to an undefined name, makes compilation return an error rather than panic or loop.", "quantifier": "all symbolic libraries", "why_tests_cant": "Non-termination cannot be observed by a finite test.", "anchors": ["src/typelib/symbolic.rs: SymbolicLib::compile, LibBuilder::compile_symbols"]}
{"id": "C24", "title": "Compile after to_symbolic is the identity", "statement": "Turning a compiled library into symbolic form and compiling it again gives back the same library, unless the hash function collided.", "quantifier": "all compiled libraries", "why_tests_cant": "Round trip for all libraries.", "anchors": ["src/typelib/symbolic.rs: TypeLib::to_symbolic, SymbolicLib::compile", "src/typelib/translate.rs"]}
{"id": "C25", "title": "Inline nesting limit", "statement": "Compilation fails with the nesting error exactly for types that embed other types more than three levels deep, and never otherwise.", "quantifier": "all symbolic types", "why_tests_cant": "All nestings.", "anchors": ["src/typelib/compile.rs: Translate<InlineRef2> for TranspileRef"]}
{"id": "C26", "title": "Declared dependencies are exactly the used ones", "statement": "Every library listed in the compiled library's dependencies provides at least one external type, every external-type library is listed, and building fails for an unknown library.", "quantifier": "all builders and symbolic libraries", "why_tests_cant": "All sets of libraries and external types.", "anchors": ["src/typelib/symbolic.rs: LibBuilder::compile_symbols, SymbolicLib::compile"]}
{"id": "C27", "title": "Symbol compilation checks external types", "statement": "compile_symbols succeeds only if each recorded external type is among the types its (known) dependency provides; otherwise it names the missing one.", "quantifier": "all builder states", "why_tests_cant": "All builder states.", "anchors": ["src/typelib/symbolic.rs: LibBuilder::compile_symbols"]}
{"id": "C28", "title": "Library population keeps names and dependencies unique", "statement": "Any sequence of import and populate calls keeps type names and dependency ids duplicate-free and within the limits, an already present entry is never replaced, and each failed call leaves the library unchanged.", "quantifier": "all sequences of calls", "why_tests_cant": "All histories.", "anchors": ["src/typelib/type_lib.rs: TypeLib::import, TypeLib::populate"]}
{"id": "C29", "title": "Value round trip: encode then decode", "statement": "For every well-typed value, serialising succeeds and deserialising the bytes followed by any suffix returns the same value and leaves the suffix.", "quantifier": "all type systems, all well-typed values, all suffixes", "why_tests_cant": "All values of all types.", "anchors": ["src/value/encode.rs: strict_write_ty", "src/value/decode.rs: strict_read_type"]}
{"id": "C30", "title": "Value decoding is canonical", "statement": "If bytes decode to a value, serialising that value gives back exactly the bytes that were consumed; different consumed bytes give different values.", "quantifier": "all type systems, all byte strings", "why_tests_cant": "All inputs, including malformed.", "anchors": ["src/value/decode.rs: strict_read_type", "src/value/encode.rs"]}
{"id": "C31", "title": "Deserialisation consumes the whole input", "statement": "strict_deserialize_type succeeds only if reading the type consumes all bytes; any proper prefix or any extension of an accepted input is rejected.", "quantifier": "all systems, all byte strings", "why_tests_cant": "All inputs and all truncations.", "anchors": ["src/value/decode.rs: strict_deserialize_type"]}
{"id": "C32", "title": "Decoded values satisfy the type's constraints", "statement": "A decoded value respects the type: collection sizes are within bounds, set items and map keys are distinct, characters belong to the declared alphabet.", "quantifier": "all systems, all byte strings", "why_tests_cant": "All inputs.", "anchors": ["src/value/decode.rs: strict_read_type"]}
{"id": "C33", "title": "Decoding is total", "statement": "Reading a value terminates without panicking on every type system and every byte string.", "quantifier": "all systems, all byte strings", "why_tests_cant": "Non-termination and panics on rare types.", "anchors": ["src/value/decode.rs: strict_read_type, strict_read_list"]}
{"id": "C34", "title": "Typify enforces collection bounds", "statement": "Whenever typify accepts a value for a list, set or map type, the number of items is within the declared sizing, and for an array it is exactly the declared length.", "quantifier": "all systems, values and ids", "why_tests_cant": "All values.", "anchors": ["src/value/typify.rs: TypeSystem::typify"]}
{"id": "C35", "title": "Typify rejects repeated set items and map keys", "statement": "In every accepted set the items, and in every accepted map the keys, are pairwise distinct after normalisation, at every nesting depth reached by typify.", "quantifier": "all systems, values and ids", "why_tests_cant": "All values.", "anchors": ["src/value/typify.rs: TypeSystem::typify"]}
{"id": "C36", "title": "Typify checks numeric ranges", "statement": "A number accepted by typify for an integer type fits in it, so serialising does not lose bits.", "quantifier": "all integers and primitive types", "why_tests_cant": "All 64-bit values times all primitives.", "anchors": ["src/value/typify.rs: PrimitiveValue", "src/value/encode.rs: strict_write_ty"]}
{"id": "C37", "title": "Typified values can be serialised", "statement": "Whatever typify accepts, strict serialisation of the result neither panics nor fails.", "quantifier": "all systems and values", "why_tests_cant": "All values.", "anchors": ["src/value/typify.rs", "src/value/encode.rs"]}
{"id": "C38", "title": "Typify is idempotent", "statement": "Typifying an already typified value against the same type succeeds and changes nothing.", "quantifier": "all systems and values", "why_tests_cant": "All values.", "anchors": ["src/value/typify.rs"]}
{"id": "C39", "title": "Decoded values pass typify unchanged", "statement": "Any value obtained by decoding is accepted by typify for the same type without change.", "quantifier": "all systems and byte strings", "why_tests_cant": "All inputs.", "anchors": ["src/value/decode.rs", "src/value/typify.rs"]}
{"id": "C40", "title": "Struct field handling in typify and serialisation", "statement": "For a struct type, typify accepts a struct value only if it has exactly the declared field names; serialisation writes the fields in declaration order whatever order the value lists them in.", "quantifier": "all struct types, values and field permutations", "why_tests_cant": "All permutations.", "anchors": ["src/value/typify.rs", "src/value/encode.rs"]}
{"id": "C41", "title": "Value path access composes", "statement": "Accessing a value by a path equals accessing step by step; the empty path gives the value itself; an error is returned when any step does not apply.", "quantifier": "all values and all paths", "why_tests_cant": "All paths of any length.", "anchors": ["src/value/path.rs: StrictVal::at_path"]}
{"id": "C42", "title": "Type path access composes", "statement": "Accessing a type by a path equals following the steps one after another from the root.", "quantifier": "all types and all paths", "why_tests_cant": "All paths of any length.", "anchors": ["src/ast/path.rs: Ty::at_path"]}
{"id": "C43", "title": "Map key steps match exactly their key", "statement": "A path key step selects a map entry only if the key denotes the same number, bytes or string, and no two different steps match the same key.", "quantifier": "all key steps and values", "why_tests_cant": "All keys.", "anchors": ["src/value/path.rs: KeyStep::has_match"]}
{"id": "C44", "title": "Iteration enumerates all references in order", "statement": "Iterating a type yields every direct reference exactly once, in declaration order, with the right item case, and then stops, for every number of fields allowed by the type.", "quantifier": "all well-formed types", "why_tests_cant": "All field counts up to the maximum; the failing case is the maximum.", "anchors": ["src/ast/iter.rs: Iter, IntoIter", "src/ast/ty.rs: Ty::ty_at, Ty::case_at"]}
{"id": "C45", "title": "Reference counting agrees with iteration", "statement": "count_subtypes/type_refs counts equal the number of references enumerated by position.", "quantifier": "all well-formed types", "why_tests_cant": "All types.", "anchors": ["src/ast/path.rs", "src/ast/iter.rs"]}
{"id": "C46", "title": "Variant lookups are mutually inverse", "statement": "For enums and unions with distinct tags and names, looking up a tag by name and a name by tag are inverse partial functions, and has_tag/has_name agree with them.", "quantifier": "all variant sets", "why_tests_cant": "All variant sets.", "anchors": ["src/ast/ty.rs: EnumVariants, UnionVariants"]}
{"id": "C47", "title": "Optional types are recognised exactly", "statement": "is_option holds exactly for two-variant unions none(0)/some(1), as_some returns the payload type, and the null value typifies to none and any payload to some.", "quantifier": "all types and values", "why_tests_cant": "All types.", "anchors": ["src/ast/ty.rs: Ty::as_some, Ty::is_option", "src/value/typify.rs"]}
{"id": "C48", "title": "Option values unwrap to what was wrapped", "statement": "unwrap_option of none is absent and of some(v) is v, through any number of newtype wrappers; skip_wrapper removes all and only one-field tuples and is idempotent.", "quantifier": "all values and wrapper depths", "why_tests_cant": "Unbounded wrapper depth.", "anchors": ["src/value/val.rs: skip_wrapper, unwrap_option, unwrap_*"]}
{"id": "C49", "title": "Memory layout tree mirrors the type tree", "statement": "Converting a type layout to a vesper expression produces a tree whose pre-order listing is the layout's item list and in which every item is a child of its enclosing item; it never panics.", "quantifier": "all layouts produced from type systems", "why_tests_cant": "All trees of any depth.", "anchors": ["src/layout/memory.rs: TypeLayout::to_vesper", "src/typesys/iter.rs: TypeTreeIter", "src/layout/translate.rs"]}
{"id": "C50", "title": "Format names parse back", "statement": "Parsing the displayed name of any output format returns that format, and parsing is insensitive to nothing else: only documented names are accepted.", "quantifier": "all formats and strings", "why_tests_cant": "All strings.", "anchors": ["src/util.rs: StlFormat"]}
{"id": "C51", "title": "Version display is faithful", "statement": "Displayed semantic versions are in major.minor.patch-pre+build form and different versions display differently.", "quantifier": "all versions", "why_tests_cant": "All versions.", "anchors": ["src/util.rs: SemVer"]}
{"id": "C52", "title": "Text form of values is unambiguous", "statement": "Different values have different STON text.", "quantifier": "all pairs of values", "why_tests_cant": "All pairs.", "anchors": ["src/value/ston.rs: Display for StrictVal"]}
{"id": "C53", "title": "JSON import preserves structure", "statement": "Converting JSON/YAML/TOML documents into values keeps numbers, strings, order and nesting, and never panics.", "quantifier": "all documents", "why_tests_cant": "All documents.", "anchors": ["src/value/convert.rs"]}
{"id": "C54", "title": "Dependency equality is an equivalence consistent with its order", "statement": "Equality of dependencies is transitive, agrees with ordering and with hashing, as the collections storing them require.", "quantifier": "all triples of dependencies", "why_tests_cant": "All triples.", "anchors": ["src/typelib/type_lib.rs: Dependency"]}
{"id": "C55", "title": "Translation is structural", "statement": "Translating a type replaces each reference by its translation and changes nothing else; it fails with the first failing reference, and translation by identity is the identity.", "quantifier": "all types and reference translations", "why_tests_cant": "All types and all translation functions.", "anchors": ["src/ast/translate.rs"]}
{"id": "C56", "title": "RString sizing", "statement": "A restricted string's size limits as written and read are those of its tail plus one, computed without overflow.", "quantifier": "all restricted string types", "why_tests_cant": "The overflow happens only at the maximum.", "anchors": ["src/typesys/type_sys.rs: rstring_sizing, is_rstring"]}
{"id": "C57", "title": "Transpiling a Rust type records all it references", "statement": "After transpiling any set of Rust types into a builder, every named reference inside the recorded types is recorded in the builder or as an external type with its id; transpiling a type twice changes nothing.", "quantifier": "all sequences of transpile calls on all type descriptions", "why_tests_cant": "All histories and type graphs.", "anchors": ["src/typelib/transpile.rs: LibBuilder, compile_type, report_compiled"]}
{"id": "C58", "title": "Importing a library keeps its definitions", "statement": "After finalize, the type found under the id of any type declared in an imported library is that declaration with every reference replaced by the id of the type it stands for, and likewise for the inline types it contains.", "quantifier": "all sequences of imported libraries, all their types and inline types", "why_tests_cant": "Ranges over all library contents; the failing cases need two types whose commitments coincide.", "anchors": ["src/typesys/translate.rs: SystemBuilder::import, translate_inline", "src/ast/id.rs: SemCommit for Ty"]}
{"id": "C59", "title": "Reading definitions is total", "statement": "Decoding a type, library, type system, symbol table, symbolic system or symbolic library from any bytes returns an object or an error: it never panics or loops; it looks only at the bytes it consumes; and an input cut short is reported as incomplete.", "quantifier": "all byte strings, all nesting depths", "why_tests_cant": "Ranges over all inputs, mostly malformed, and unbounded nesting.", "anchors": ["src/ast/encoding.rs", "src/ast/ty.rs: Ty", "src/typelib/type_lib.rs: TypeLib", "src/typelib/symbolic.rs: TranspileRef, SymbolicLib", "src/typesys/type_sys.rs: TypeSystem", "src/typesys/symbols.rs: Symbols, SymbolicSys"]}
{"id": "C60", "title": "Decoded definitions satisfy the documented guarantees", "statement": "Every decoded type system is complete (no type references a type which is not a part of the system), has each type under its own id, and respects the limits of its containers.", "quantifier": "all byte strings", "why_tests_cant": "Ranges over all inputs.", "anchors": ["src/typesys/type_sys.rs: TypeSystem (type guarantees)", "src/typelib/type_lib.rs: TypeLib"]}
{"id": "C61", "title": "Serialised type systems stay below 2^24 bytes", "statement": "The strict-serialised size of any type system is less than 2^24 bytes.", "quantifier": "all type systems that the containers can hold", "why_tests_cant": "Ranges over all systems.", "anchors": ["src/typesys/type_sys.rs: TypeSystem (type guarantees)"]}
{"id": "C62", "title": "Layouts show fields, variants, keys and values under their names", "statement": "In the expression made from a memory layout, the items below a structure carry the names of its fields, those below a union the names of its variants, and those below a map are called key and value, in the order of the definition and one for each.", "quantifier": "all types of all symbolic type systems", "why_tests_cant": "Ranges over all type systems and all places in them.", "anchors": ["src/layout/translate.rs: TypeInfo::to_vesper", "src/typesys/iter.rs: TypeTreeIter::next"]}
{"id": "C63", "title": "Layouts show the wire tags of union variants", "statement": "The tag attribute shown for a union variant in a layout expression is the tag byte the variant is serialised with.", "quantifier": "all union types of all symbolic type systems", "why_tests_cant": "Only unions with gaps in their tags reveal it.", "anchors": ["src/layout/translate.rs: TypeInfo::to_vesper", "src/ast/ty.rs: Ty::case_at"]}
{"id": "C64", "title": "One name, one type while building a library", "statement": "While Rust types are transpiled into a builder, a name of the library stands for one type: transpiling a type with a name already recorded for a different type is refused.", "quantifier": "all builders, all pairs of Rust types with the same name, at top level or nested", "why_tests_cant": "The check is skipped for types met as fields and uses an equality that ignores half of a variant; only a proof over all types shows where it holds.", "anchors": ["src/typelib/transpile.rs: compile_type, report_compiled"]}
{"id": "C65", "title": "External types exist in their libraries under the same id", "statement": "Every external type recorded in a library built from Rust types is declared by the library of that name under the recorded name, with the recorded id, and that library is a dependency: the id of a type does not depend on the library it is used in.", "quantifier": "all Rust types, all sequences of crates using types of each other", "why_tests_cant": "Ids computed in different builders must agree for every type; tests compare a few fixed ids.", "anchors": ["src/typelib/transpile.rs: compile_type, report_compiled", "src/typelib/symbolic.rs: LibBuilder::compile_symbols", "src/typelib/type_lib.rs: TypeLib::to_dependency_types"]}
{"id": "C66", "title": "Crates build in dependency order", "statement": "The libraries of crates which use types of crates before them only are built one after another without an error, and each declares exactly the named types of its crate, with the ids and definitions which the Rust types have independently of any library.", "quantifier": "all layered sequences of crates within the limits of the containers, all hash functions", "why_tests_cant": "Ranges over all sequences of crates and all types in them.", "anchors": ["src/typelib/transpile.rs: LibBuilder::transpile", "src/typelib/symbolic.rs: LibBuilder::compile", "src/stl.rs: std_stl, strict_types_stl"]}
{"id": "C67", "title": "The libraries of crates make up a complete type system", "statement": "Importing the libraries built for crates into a system builder, in whatever order, gives a type system in which every reference resolves, every Rust type is found under its id, its definition is what the Rust type stands for, and its full name resolves to that id.", "quantifier": "all layered sequences of crates, all orders of import", "why_tests_cant": "Ranges over all crates and all orders of import; tests assemble the fixed standard libraries.", "anchors": ["src/typesys/translate.rs: SystemBuilder::import, SystemBuilder::finalize", "src/typesys/symbols.rs: SymbolicSys", "src/typelib/symbolic.rs: LibBuilder::compile"]}
{"id": "C68", "title": "The source form shows the whole library", "statement": "Type libraries with the same source form (.sty) have the same name, dependencies, used external types, and the same types under the same names: the text of a type determines the type.", "quantifier": "all types and all libraries, at any depth of nesting", "why_tests_cant": "Ambiguities of a printer show only in pairs of types with equal text; there are infinitely many pairs.", "anchors": ["src/ast/ty.rs: Display for Ty, NamedFields, UnnamedFields, UnionVariants, EnumVariants", "src/typelib/serialize.rs: Display for SymbolicLib", "src/typelib/symbolic.rs: Display for TranspileRef"]}
{"id": "C69", "title": "Full type names are read back from their text", "statement": "The text of a full type name (library.type) is read as the same name; a text is read only if it is the text of a full name, and anything else panics.", "quantifier": "all texts, all names", "why_tests_cant": "Ranges over all texts.", "anchors": ["src/typesys/type_sys.rs: TypeFqn, From<&'static str> for TypeFqn"]}
{"id": "C70", "title": "Merging type systems keeps both", "statement": "Merging a type system into another gives a system with the types of both, each with its definition; it changes how no value of a type of either is checked, written or read; references resolved in the systems are resolved in the result; the order of merging does not matter; and merging fails only if there are too many types, leaving the system as it was.", "quantifier": "all pairs of type systems, all types, all values and byte strings", "why_tests_cant": "Ranges over all pairs of systems, of up to 2^24-1 types.", "anchors": ["src/typesys/type_sys.rs: TypeSystem::extend"]}
{"id": "C71", "title": "Different paths have different texts", "statement": "The text of a value path or type path, as shown in errors and documentation, tells the path: two paths with the same text are the same.", "quantifier": "all value paths and type paths of any length", "why_tests_cant": "Ranges over pairs of paths of any length with any keys.", "anchors": ["src/value/path.rs: Display for KeyStep, Step, Path", "src/ast/path.rs: Display for Step, Path"]}
{"id": "C72", "title": "Accessors return the parts of typed values", "statement": "For a decoded or well-typed value, the accessor of the class of its type (struct field, tuple field, variant, option, item, key, number, string, bytes), through any number of newtypes, does not panic and returns the part, which has the type of the part.", "quantifier": "all types, all values of them, all fields, positions and keys, all depths of newtypes", "why_tests_cant": "Ranges over all types and values.", "anchors": ["src/value/val.rs: StrictVal::skip_wrapper, unwrap_struct, unwrap_tuple, unwrap_union, unwrap_enum_tag, unwrap_option, unwrap_pos, unwrap_key, unwrap_uint, unwrap_string, unwrap_bytes"]}
{"id": "C73", "title": "Layouts are told by their text", "statement": "Two layouts with the same text are equal: the text shows every item, what is below what, the subjects, predicates and labels; bounds of collections are shown without loss also when an upper bound is shown by its name. So types with the same layout text have the same enumeration values, primitive types, array lengths and collection bounds item by item.", "quantifier": "all layouts, all labels, all bounds, all type systems and types", "why_tests_cant": "Injectivity of a text form ranges over all pairs of layouts of any depth and width.", "anchors": ["src/layout/vesper.rs: Attr, AttrExpr, LenRange, Pred", "src/layout/memory.rs: MemoryLayout", "src/typesys/iter.rs: TypeTree"]}
{"id": "C74", "title": "Values come back from their documents", "statement": "A value written through serde to a self-describing format (JSON) and read again is the same value. Two different values have different documents.", "quantifier": "all values of any depth, all implementations of big numbers by the external crate", "why_tests_cant": "The variants are untagged and tried one after another, so whether a document is taken for another variant depends on every part of every value.", "anchors": ["src/value/val.rs: StrictVal, StrictNum, EnumTag, Blob, _serde"]}
{"id": "C75", "title": "Typed values come back from their documents with the help of their type", "statement": "A well-typed value that is written through serde, read again and typified with its type is the same value.", "quantifier": "all type systems, all types, all well-typed values", "why_tests_cant": "Depends on how each class of types treats each of the forms that untagged reading may produce, at any depth of nesting.", "anchors": ["src/value/val.rs: StrictVal", "src/value/typify.rs: TypeSystem::typify"]}
{"id": "C76", "title": "Systems assembled from libraries contain exactly the described types and are fit for use", "statement": "A type system assembled from complete libraries meets what the other properties assume of type systems: its types are within the limits of their containers, every referenced type is present, struct fields are distinct, and the ids of the unit, bytes and unicode characters denote these types. If the libraries are built from crates, the system contains the Rust types the crates own and everything those mention, together with the characters of unicode strings and the tails of restricted strings, each under its id and nothing else, unless the hash has a collision.", "quantifier": "all hash functions, all lists of well-formed linked libraries, all lists of crates in layers, all import orders", "why_tests_cant": "The assumptions range over every type of every assembled system; a test inspects the types of one system, and the collision argument needs all hash functions.", "anchors": ["src/typesys/translate.rs: SystemBuilder::import, SystemBuilder::finalize, Translate<TypeLib>", "src/typelib/compile.rs: NestedContext", "src/ast/id.rs: SemId::unit, SemId::byte, SemId::unicode_char"]}
{"id": "C77", "title": "What a Rust program writes is read back through the type system of its crates", "statement": "Take crates, build their libraries and assemble a type system from them in any order. The bytes a Rust program writes for a value of a type owned by one of the crates, or mentioned by such a type, are then read by strict_deserialize_type with the id of the type as the dynamic value which corresponds to the Rust value, and strict_read_type leaves what follows.", "quantifier": "all hash functions, all lists of crates in layers, all import orders, all Rust types of them, all values, all following bytes", "why_tests_cant": "Connects transpiling, compiling, import and reading for every possible Rust type and value; tests exercise a few types of one crate.", "anchors": ["src/value/decode.rs: TypeSystem::strict_read_type, TypeSystem::strict_deserialize_type", "src/typelib/symbolic.rs: LibBuilder::compile, SymbolicLib::compile", "src/typelib/transpile.rs: LibBuilder::transpile", "src/typesys/translate.rs: SystemBuilder::finalize", "src/typesys/type_sys.rs: TypeSystem::is_rstring"]}
{"id": "C78", "title": "Dynamic values of Rust values are written as the Rust program writes them", "statement": "With the type system assembled from the libraries of crates, strict_write_type gives for the dynamic value of a Rust value the same bytes as the Rust program writes for the value itself.", "quantifier": "all hash functions, all lists of crates in layers, all import orders, all Rust types of them, all values", "why_tests_cant": "Equality of two encoders for every type and value; tests compare them on single values.", "anchors": ["src/value/encode.rs: TypeSystem::strict_write_val, TypeSystem::strict_write_ty", "src/typelib/symbolic.rs: LibBuilder::compile, SymbolicLib::compile", "src/typesys/translate.rs: SystemBuilder::finalize"]}
{"id": "C79", "title": "Types are used by their names", "statement": "The functions of a symbolic type system which take a type by its full name written as text (get, type_tree, typify, strict_read_type, strict_deserialize_type) do exactly what they do for the id of the type declared under this name, refuse names which no library declares with an error naming the requested type, and stop the program only for texts that are no full names. In particular what a Rust program writes for a value of its type is read back by the text Crate.Type, is named so by the system, and is written again as the same bytes.", "quantifier": "all lists of libraries and orders of import, all texts, all values and byte strings, all crates, Rust types and values of these", "why_tests_cant": "Tests ask for a handful of names in one system; that a name means the declared id, for every system, function and value, and that nothing else is accepted, is a statement about all of them.", "anchors": ["src/value/typify.rs: SymbolicSys::typify, TypeSpec, TypedVal", "src/value/decode.rs: SymbolicSys::strict_deserialize_type, SymbolicSys::strict_read_type", "src/typesys/symbols.rs: SymbolicSys::to_sem_id, SymbolicSys::get, SymbolicSys::type_tree", "src/typesys/type_sys.rs: From<&'static str> for TypeFqn"]}
{"id": "C80", "title": "The values of a Rust type are exactly the well-typed values of its id", "statement": "In a type system assembled from the libraries of crates the values of the id of a Rust type, as the type system describes them, are exactly the dynamic values of its Rust values: every Rust value is described and nothing else is. Each value has one binary form, two values never have the same form, and no form is the beginning of another.", "quantifier": "all crates and orders of import, all types owned or mentioned by their types, all dynamic values, all byte strings", "why_tests_cant": "Tests take a few Rust values and look at what they become; that the description has no further values, and that no two values share their bytes, is a statement about all values of all types.", "anchors": ["src/ast/ty.rs: Ty", "src/typelib/transpile.rs: LibBuilder::transpile", "src/typesys/translate.rs: SystemBuilder::finalize", "src/value/decode.rs: TypeSystem::strict_read_type", "src/value/encode.rs: TypeSystem::strict_write_type"]}
{"id": "C81", "title": "Dynamic values of Rust values are accepted and not changed", "statement": "The dynamic value of a Rust value, without repeated set items and map keys, is accepted by typify for the id of the Rust type or by the text Crate.Type, is returned unchanged, and is then serialised as the Rust program writes it.", "quantifier": "all crates and orders of import, all types owned or mentioned by their types, all values of these", "why_tests_cant": "Tests check some hand-written values; that the check accepts every value a Rust program can have is a statement about all types and values.", "anchors": ["src/value/typify.rs: TypeSystem::typify, SymbolicSys::typify", "src/value/encode.rs: TypeSystem::strict_serialize_type, TypedVal"]}
{"id": "C82", "title": "Types of crates are told apart by their ids", "statement": "Crates whose types are described by texts that differ whatever the ids of named types in them are (a condition computed without any hash) have no two types with the same id: definitions with the same id are the same, types of different crates or different names have different ids, and no named type has the id of an unnamed one. So their libraries build, any order of them assembles into a type system, which contains exactly the types of the crates, and names and ids lead to each other.", "quantifier": "all hash functions, all buildable lists of crates satisfying the condition, all orders of their libraries, debug and release builds (or there is a hash collision)", "why_tests_cant": "The ids commit to concatenations without the lengths of tuples or the number of fields, so whether two types clash depends on all pairs of types at once; a test sees the ids of one hash function and a few types.", "anchors": ["src/ast/id.rs: Ty::commit, sem_id_inner", "src/typelib/id.rs: CommitConsume for TranspileRef", "src/typelib/transpile.rs: LibBuilder::report_compiled", "src/typesys/type_sys.rs: SystemBuilder::finalize", "src/typelib/symbolic.rs: TranspileRef::id"]}
{"id": "C83", "title": "The library StrictTypes describes libraries and type systems", "statement": "The libraries Std and StrictTypes, built from the Rust types of this crate, assemble into a type system in which the text StrictTypes.TypeLib reads the file of every library, accepts the value read without changing it and writes the same file again; the same holds for StrictTypes.TypeSystem, StrictTypes.Symbols and StrictTypes.SymbolicSys.", "quantifier": "all hash functions, all well-formed libraries, type systems, symbol tables and symbolic systems with properly cased names, both orders of the two libraries, debug and release builds (or the hash collides on texts of these crates, or two ids of them overlap in thirty bytes)", "why_tests_cant": "The repository ships the library files, but a test reads only a few artefacts through them; whether the description agrees with the hand-written and derived encoders is a statement about all libraries and systems.", "anchors": ["src/stl.rs: std_stl, strict_types_stl", "src/typelib/type_lib.rs: TypeLib, LibRef, InlineRef", "src/ast/ty.rs: Ty, StrictEncode for Ty", "src/typesys/type_sys.rs: TypeSystem", "src/typesys/symbols.rs: Symbols, SymbolicSys", "src/value/decode.rs: strict_read_type", "src/value/typify.rs: typify"]}
{"id": "C84", "title": "Rust programs and dynamic values agree, from the Rust types alone", "statement": "For a set of crates whose Rust types can be told apart by their descriptions and are of the supported kinds, the libraries are built and assembled in any order, and for every type of every crate: the well-typed dynamic values of its id are exactly the dynamic values of its Rust values; by its name `Crate.Type` what a Rust program writes is read, the value is accepted unchanged, and it is written as the same bytes. No condition mentions ids, libraries or systems.", "quantifier": "all hashes, all build modes, all lists of buildable crates with distinguishable regular types, all orders of libraries, all types owned by the crates, all Rust values without repeated set items and map keys, all length limits", "why_tests_cant": "The types of a crate and their values are unbounded, and the condition (different descriptions) is about all pairs of types; tests check the few crates and values somebody thought of.", "anchors": ["src/typelib/transpile.rs: LibBuilder", "src/typelib/symbolic.rs: SymbolicLib::compile", "src/typesys/translate.rs: SystemBuilder::finalize", "src/typesys/symbols.rs: SymbolicSys", "src/value/typify.rs: typify", "src/value/decode.rs: strict_read_type", "src/value/encode.rs: strict_write_type"]}
{"id": "C85", "title": "Builders of structs, enums and unions build the type of the calls made", "statement": "StructBuilder and UnionBuilder, run call by call on the calls derived for a Rust type, do to the library exactly what the description of the type says: the fields in the order written, the variants in the order of tags each with the type of its contents, whatever way it ends. Definers and writers given the same fields report the same type; a definer whose fields are then written completes with that type.", "quantifier": "all hashes, all libraries being built, all lists of fields of any Rust types, all lists of variants with distinct names in any order and with any tags, all variants written, debug and release builds", "why_tests_cant": "The builders hand a placeholder library back and forth between nested builders; a lost or doubled field or a variant under a wrong tag shows only for certain nestings and orders of tags, of which there is no end.", "anchors": ["src/typelib/transpile.rs: StructBuilder, UnionBuilder, BuilderParent, write_enum, write_union, write_struct, write_tuple"]}
{"id": "C86", "title": "The text form of a type system shows the whole system", "statement": "The printed form of a TypeSystem determines the system: two systems with the same text have the same types under the same ids. The printed form of a SymbolicSys also determines the full names of its types; the printed form of Symbols determines the libraries and the named types.", "quantifier": "all type systems, symbolic systems and sets of symbols, all texts of ids, primitive types and bounds which are words of the expected form and different for different values, and all hash functions", "why_tests_cant": "Two systems out of an unbounded set might print the same; the claim is the injectivity of the printer, with multi-line types, names, ids in several forms and comments in one text.", "anchors": ["src/typesys/type_sys.rs: Display for TypeSystem", "src/typesys/symbols.rs: Display for SymbolicSys, Display for Symbols", "src/typesys/translate.rs: Display for TypeSymbol, Translate<TypeSymbol> for SemId", "src/ast/ty.rs: Display for Ty, UnionVariants, EnumVariants, NamedFields, UnnamedFields"]}
{"id": "C87", "title": "Ids of types, libraries and type systems are told apart", "statement": "No type, library or type system shares its id with one of another kind: a semantic id is never the id of a library or of a type system, and a library id is never the id of a type system, unless the hash function collides on the tags or on the two strings hashed. Every clash of two ids of one kind is a collision of the hash function itself, since tagged hashing is injective in the data.", "quantifier": "all types with any references, named or not, all libraries, all type systems, and all hash functions", "why_tests_cant": "Domain separation is about all pairs of objects of different kinds; a test compares a few ids, which differ for nearly any tag.", "anchors": ["src/ast/id.rs: SemId, SEM_ID_TAG, SemCommit for Ty", "src/typelib/id.rs: LIB_ID_TAG, TypeLibId", "src/typesys/id.rs: TypeSysId"]}
{"id": "C88", "title": "Exported libraries go to files of their own and can be told from them", "statement": "TypeLib::serialize writes a library to a file of the given directory named after the library, the version and the format, so that different libraries, versions and formats never share a file; the binary file is read back as the same library; the source file determines the id, the name, the version with the header, the dependencies and the definitions of the library, and for a library compiled from a symbolic one it shows that symbolic library.", "quantifier": "all libraries, directories, versions, headers and formats, all texts of ids, primitive types and bounds of the expected form, and all hash functions", "why_tests_cant": "Collisions among the names and among the contents are about all pairs of libraries; the limit of the writer and the panic for unrecorded external types concern libraries no test has.", "anchors": ["src/typelib/serialize.rs: TypeLib::serialize, SymbolicLib::serialize, StlFormat"]}
{"id": "C89", "title": "Layouts tell kinds, sizes, character sets and wrappers", "statement": "Each item of a memory layout tells of its type exactly: the kind, the bounds of collections and of restricted strings, the length of arrays, the values of enumerations with their tags, the primitive type, the names of the character sets of strings, and the wrappers and options around it with their names in order; and it is shown under the name of its place or else of its type.", "quantifier": "all symbolic systems, all types with an outline and all items in it, and all hash functions", "why_tests_cant": "The attributes are collected from four places over nested types; a wrong or missing one shows only for certain shapes of types among unboundedly many.", "anchors": ["src/layout/translate.rs: TypeInfo::to_vesper", "src/layout/vesper.rs: Pred, Attr", "src/typesys/iter.rs: NestedCase, TypeTreeIter"]}
{"id": "C90", "title": "Predicates of types tell the shapes of their values", "statement": "Every type is exactly one of primitive, collection, compound, newtype, or a struct of one field; the predicate which holds tells what all values of the type look like. is_char_enum holds exactly for enums of ASCII characters, through newtypes, however the type is referred to. A union has a first and a last variant, those of the smallest and the greatest tag.", "quantifier": "all types, all reference kinds, all values of the types", "why_tests_cant": "Ranges over all types and their values.", "anchors": ["src/ast/ty.rs: Ty::is_primitive, is_collection, is_compound, is_newtype, is_char_enum, UnionVariants::unwrap_first, unwrap_last, name_by_pos", "src/typelib/symbolic.rs: TranspileRef::as_ty"]}
{"id": "C91", "title": "Values of enums and options convert to the Rust values and back", "statement": "unwrap_enum gives a variant of the Rust enum exactly for values which name it or have its number, inside of any number of wrappers, and panics otherwise; every typed value of the enum converts, and the variant is the one whose tag is written. From<Option> and unwrap_option are inverse, and the value made is typed exactly when its content is.", "quantifier": "all variant lists with distinct names and tags, all values, all type systems, all depths of wrappers", "why_tests_cant": "Ranges over all enums and values.", "anchors": ["src/value/val.rs: StrictVal::unwrap_enum, unwrap_enum_tag, bool, none, some, From<Option<T>>"]}
{"id": "C92", "title": "Files of memory layouts", "statement": "The strict encoding of the memory layout of a type is read back as the same layout whatever follows; different layouts have different files, none the beginning of another; reading arbitrary bytes as a layout never panics and yields something that can be shown; and the library StrictTypes describes such files: by the name StrictTypes.MemoryLayout they are read, accepted and written unchanged.", "quantifier": "every type of every type system of well-formed types, every byte string, every hash function", "why_tests_cant": "the repository has no test of the binary form of layouts; tests would compare files of a few types, not all byte strings a reader may meet", "anchors": ["src/layout/memory.rs: MemoryLayout, MemoryLayout::to_vesper", "src/typesys/iter.rs: NestedCase, TypeInfo, TypeTreeIter", "src/ast/ty.rs: ItemCase", "src/stl.rs: strict_types_stl"]}
{"id": "C93", "title": "Layouts of Rust types", "statement": "When the libraries of crates are built, assembled in whatever order and a type is looked up by its name, the layout reported is the tree of the Rust type: every field and variant with its name and full type name, variants in the order of tags, parents before children, newtypes merged into what they wrap; and the text shown for it has one node for each node of this tree, at the same place.", "quantifier": "every collection of crates which can be built and whose different types are described by different texts, every type of them, every order of the libraries, every hash function without a collision among these texts; and the crates Std and StrictTypes themselves", "why_tests_cant": "the repository writes a single layout file and does not compare it with the Rust types; tests of layouts look at hand-made systems, not at what the whole way from Rust types gives", "anchors": ["src/layout/memory.rs: MemoryLayout, MemoryLayout::to_vesper", "src/typesys/iter.rs: TypeTreeIter, TypeTree", "src/typelib/transpile.rs: LibBuilder::transpile", "src/typelib/compile.rs: LibBuilder::compile", "src/typesys/builder.rs: SystemBuilder::finalize", "src/stl.rs: std_stl, strict_types_stl"]}
{"id": "C94", "title": "The programs", "statement": "The programs std-stl and strict-stl write the libraries Std and StrictTypes, with exactly the named types of the crates under their ids, to the place and in the format asked for by the arguments: the binary form is read back as the library, the source form shows a symbolic library which compiles to it, and arguments which ask for nothing are refused. The program strict-vesper does not panic and writes the tree of the Rust type TypeLib.", "quantifier": "every list of arguments, every hash function without a collision among the texts of the types, both build modes", "why_tests_cant": "programs are run by hand and the files committed; nothing checks that what they write is what the libraries and the Rust types say, whatever the arguments", "anchors": ["src/bin/std-stl.rs: main", "src/bin/strict-stl.rs: main", "src/bin/strict-vesper.rs: main", "src/stl.rs: std_stl, strict_types_stl", "src/util.rs: parse_args", "src/typelib/serialize.rs: TypeLib::serialize"]}
{"id": "C95", "title": "Equality of values", "statement": "Two values are equal exactly when they have equal parts in the same places, with the fields of structures in whatever order; this is an equivalence; values of the same type are equal only if they are identical, and values read from two pieces of data are equal exactly when the data are. No set or map of a value within its limits has an item or key twice.", "quantifier": "all values whose structures have distinct field names (every IndexMap), all types of a type system, all data", "why_tests_cant": "values nest without bound, and the equality of structures ignores an order which the binary form does not; that the two agree for typed values is a statement about all types", "anchors": ["src/value/val.rs: StrictVal (PartialEq, Eq)", "src/value/typify.rs: SymbolicSys::typify", "src/value/decode.rs: TypeSystem::strict_deserialize_type"]}
{"id": "C96", "title": "Errors tell the truth", "statement": "When reading, checking or writing a value fails, the error describes a place that is really there: an absent type is reached from the expected type and is not in the system, an unknown tag or variant is not one of the type expected at that place, a collection reported as out of bounds has a number of items which its type does not admit, repeated items are two items of one collection accepted as equal, an extra or missing field is extra or missing in a structure of the value, and bytes are reported as left over exactly if a value was read and bytes follow it. In a complete system no type is reported as absent.", "quantifier": "for every type system, type, value and byte string, at every depth", "why_tests_cant": "Tests look at a few failing inputs at the top level; the claim is about every error at every depth of every value, and about errors that must never be returned for complete systems.", "anchors": ["src/value/decode.rs: TypeSystem::strict_read_type", "src/value/decode.rs: Error", "src/value/typify.rs: TypeSystem::typify", "src/value/typify.rs: Error", "src/value/encode.rs: TypeSystem::strict_write_ty", "src/typesys/type_sys.rs: TypeSystem::is_rstring"]}
{"id": "C97", "title": "Byte strings and wrappers", "statement": "A string of bytes within the bounds of a list of bytes (below 4 GiB), or as long as an array of bytes, is accepted for that type, written as its length (for lists) followed by the bytes, and read back whatever follows. For a tuple of one field a wrapped value is accepted exactly if the value is accepted for the field, is written as that value, and is read as that value, wrapped.", "quantifier": "for every well-formed type system, every list, array or one-field tuple in it, and every byte string or value", "why_tests_cant": "Tests use a few lengths and a few wrapped types; the claim covers every bound, every width of the length prefix, every content and every wrapped type.", "anchors": ["src/value/typify.rs: TypeSystem::typify", "src/value/encode.rs: TypeSystem::strict_write_type", "src/value/decode.rs: TypeSystem::strict_read_type", "src/value/val.rs: StrictVal::Bytes", "src/ast/id.rs: SemId"]}
{"id": "C98", "title": "Binary form of paths and versions", "statement": "Steps and paths into values and types, classes of types, versions and types with their origin have binary forms from which exactly they are read back whatever follows; no other bytes are read as the same object (for types with origin: no other bytes of the same or smaller length); reading always returns and looks only at what it consumes. Paths and versions which share a text are told apart by their bytes.", "quantifier": "for all paths, steps, versions and types within the limits of their Rust types, and all byte strings", "why_tests_cant": "The repository does not test these encodings at all; samples cannot show that no second byte string is accepted for a path, or that no input makes the reader panic.", "anchors": ["src/value/path.rs: KeyStep", "src/value/path.rs: Step", "src/value/path.rs: Path", "src/ast/path.rs: Step", "src/util.rs: SemVer", "src/util.rs: PreFragment", "src/util.rs: BuildFragment", "src/ast/ty.rs: Cls", "src/typesys/type_sys.rs: SymTy"]}
{"id": "C99", "title": "Typed values are told by their text", "statement": "The text of a typed value (its value, `@` and its type) tells both the type and the value: typed values with the same text have the same type, and those returned by reading or typifying in one system are the same. The type is shown by its id, by whatever the value was asked for.", "quantifier": "for all systems, ids and names of types, values, byte strings and injective texts of ids without the sign `@`", "why_tests_cant": "Two values with one text are found by no sample of values which print differently; strings may themselves contain the separator.", "anchors": ["src/value/typify.rs: TypedVal", "src/typesys/translate.rs: TypeSymbol", "src/value/ston.rs: Display for StrictVal"]}
{"id": "C100", "title": "Characters and names of the standard libraries", "statement": "In the system assembled from the libraries Std and StrictTypes each type of Std reads, accepts and writes exactly the characters or numbers it is named after and refuses every other byte, and the values of the types of names are exactly the texts of up to a hundred letters, digits and underscores beginning with a letter of the right case or an underscore.", "quantifier": "for all hash functions (or a collision is exhibited), build modes, orders of assembling, bytes, rests of the data and values of the types of names", "why_tests_cant": "Golden files fix the ids of the two libraries but not what their types admit; the texts are unboundedly many and refusal has to hold for each of them.", "anchors": ["src/stl.rs: std_stl, strict_types_stl", "stl/Std@0.1.0.sty", "stl/StrictTypes@0.1.0.sty", "src/value/decode.rs: strict_read_type"]}
{"id": "C101", "title": "Checking and writing values come to an end", "statement": "Checking a value against a type of a type system never panics and always returns the checked value or an error, however the types refer to each other; writing a value always comes to an end.", "quantifier": "for all type systems, types, values and numbers of nested calls", "why_tests_cant": "Whether the recursion ends depends on the shape of the whole type system: a test runs on systems whose types happen not to wrap each other in circles, and cannot tell an endless recursion from a deep one.", "anchors": ["src/value/typify.rs: TypeSystem::typify", "src/value/encode.rs: strict_write_ty, strict_write_val"]}
{"id": "C102", "title": "Values given in other forms are understood as meant", "statement": "A value given for a type in another form than its own (an option as its content, a tuple as a list, a structure as a map, a wrapper as its content, a variant by name, tag, number or text, bytes as text) is understood as the one well-typed value it is a way to write, nothing else is understood as this value, and nothing given is lost.", "quantifier": "for all type systems, types, values and forms of all their parts", "why_tests_cant": "The forms combine at every layer of a value and several of them look alike, so that which arm of the match applies depends on the type and on all layers at once; tests give a few forms of a few values and do not show that nothing else is accepted.", "anchors": ["src/value/typify.rs: TypeSystem::typify", "src/value/val.rs: StrictVal"]}
{"id": "C103", "title": "The bytes of values are the strict encoding", "statement": "Every well-typed value has exactly one encoding, which is that of the strict encoding rules: numbers in little-endian order and two's complement, one byte for the tag of a variant, a length in one, two, three, four or eight bytes as the declared maximum tells and only where the type does not fix it, fields and items one after another in the order of the type with nothing between them. What is written for a value is this encoding, and a value is read from no other bytes.", "quantifier": "for all type systems, types, values, byte strings and builds", "why_tests_cant": "Writing and reading may agree with each other and still be wrong in the same way, and independent implementations agree only if the bytes are those of the rules for every type and value; tests compare the bytes of a few values.", "anchors": ["src/value/encode.rs: TypeSystem::strict_write_type", "src/value/decode.rs: TypeSystem::strict_read_type", "src/value/encode.rs: SizingByteSize"]}
{"id": "C104", "title": "Data stays readable when types are extended", "statement": "When enums and unions get further variants and the limits of collections are widened without changing the number of bytes of a length, whatever was written before is read to the same value with the extended types, values of the former types are values of the extended ones and are written to the same bytes, and data written with the extended types is either read to the same value with the former types or refused for an unknown variant, never taken for something else. Values given as text are understood as before.", "quantifier": "for all pairs of type systems related by extension, ids, byte strings, values and builds", "why_tests_cant": "Tests exercise one version of a type at a time; that two versions agree on all data is a statement about pairs of type systems, all byte strings and all nestings of the changed types.", "anchors": ["src/value/decode.rs: TypeSystem::strict_read_type", "src/value/encode.rs: TypeSystem::strict_write_type", "src/value/typify.rs: TypeSystem::typify"]}
{"id": "C105", "title": "Values which are read take space in proportion to the data", "statement": "The number of values that a piece of data is read as, and the length of the strings in them, is bounded by the size of the type and by a constant times the number of bytes read, so that short data from an untrusted source cannot be read as a huge value.", "quantifier": "all sane type systems, all types, all byte strings, all sizes of values in memory", "why_tests_cant": "The amplification is a property of all types together with all data: tests read data of sensible types, and the bound has to hold for every nesting of collections.", "anchors": ["src/value/decode.rs: strict_read_type, strict_read_list, strict_read_map"]}
{"id": "C106", "title": "Ids of types do not depend on the library in which they are declared", "statement": "A type has the same semantic id in all compiled libraries which declare it under the same name with the same references: libraries may be renamed and extended, and types may be moved to a dependency, without changing the ids of the types which stay.", "quantifier": "all pairs of symbolic libraries, all sets of types declared in both", "why_tests_cant": "Relates two compilations with different libraries, orders of compilation and kinds of references; tests compile fixed libraries.", "anchors": ["src/typelib/compile.rs: SymbolicLib::compile, TranspileRef", "src/typelib/id.rs: CommitConsume for LibRef, InlineRef, ExternRef", "src/ast/id.rs: sem_id_named"]}
{"id": "C107", "title": "Whoever knows a type by the same id agrees about its data", "statement": "Two type systems, assembled from whatever libraries, which contain a type under the same semantic id check, write and read its values alike, and what is extracted from them for the type is the same system, unless the hash function collided.", "quantifier": "all pairs of lists of libraries, all types in both systems, all values and byte strings", "why_tests_cant": "Quantifies over pairs of systems with arbitrary other contents; it is the reason for having semantic ids, and fails only for types whose texts coincide.", "anchors": ["src/typesys/translate.rs: SystemBuilder", "src/typesys/type_sys.rs: extract", "src/ast/id.rs: sem_id", "src/value/encode.rs", "src/value/decode.rs"]}
{"id": "C108", "title": "The order in which set items and map entries are listed does not matter", "statement": "Two values which differ in nothing but the order of set items and map entries are accepted alike, are equal, and are written as the same bytes; a set does not contain the same set twice.", "quantifier": "all type systems, all types, all values, all ways to reorder sets and maps at any depth", "why_tests_cant": "Quantifies over all permutations at all depths of all values; that data is unique for a set is what commitments to data depend on.", "anchors": ["src/value/val.rs: StrictVal::Set, StrictVal::Map", "src/value/typify.rs: typify", "src/value/encode.rs: strict_write_ty", "src/value/decode.rs: strict_read_type"]}
{"id": "C109", "title": "Data which is cut off is refused, and what follows the data does not matter", "statement": "The data of a value cut off anywhere is refused with the error of the end of the data, is never taken for another value and never causes a panic; the outcome of reading depends on the bytes taken and not on what follows them; data followed by anything is refused as not entirely consumed; and data refused for another reason than its end is refused for the same reason whatever follows.", "quantifier": "all type systems, all types, all values and data, all places to cut, all continuations", "why_tests_cant": "Quantifies over every type, every data and every place to cut it; a reader which looks ahead or accepts an early end fails for few types only.", "anchors": ["src/value/decode.rs: strict_deserialize_type, strict_read_type, strict_read_list, strict_read_map"]}
{"id": "C110", "title": "Builds with and without debug assertions and overflow checks agree", "statement": "Reading, writing, extracting, assembling, transpiling, compiling, laying out and the programs of the repository have the same outcome in builds with and without debug assertions and overflow checks; a check never leads to another answer.", "quantifier": "all values, data, types, type systems, Rust types, libraries, crates and arguments", "why_tests_cant": "Tests run in one kind of build; that no input makes the other kind answer differently concerns all inputs of both.", "anchors": ["src/value/encode.rs: strict_write_ty", "src/typesys/type_sys.rs: rstring_sizing, extract", "src/ast/iter.rs: Iter::next, IntoIter::next", "src/typelib/symbolic.rs: compile", "src/typelib/transpile.rs: write_rstring, LibBuilder", "src/typesys/iter.rs: TypeTreeIter::next", "src/layout/memory.rs: to_vesper", "src/typesys/translate.rs: finalize"]}
{"id": "C111", "title": "Types are confined: data is as long as the type admits", "statement": "Every type has a least and a largest number of bytes, which follow from its declaration alone; the data of every value of the type, written or read, has a length between them, and types of a fixed size have data of that size.", "quantifier": "all type systems, types, values and bytes", "why_tests_cant": "Tests compare lengths of single values; a maximum for all values of all types, and that every type has one, is a claim about all of them.", "anchors": ["README.md: confined, i.e. provides guarantees and static analysis on a maximum size", "src/value/encode.rs: strict_write_val, strict_write_ty", "src/value/decode.rs: strict_read_type, strict_read_list, strict_read_map", "src/ast/ty.rs: Sizing::byte_size"]}
{"id": "C112", "title": "Limits on data concern only types which admit longer data", "statement": "The limit given when serialising and the limit of 4 GiB when deserialising only matter for data which is longer; values of types whose largest number of bytes is within a limit are always serialised and given back, and data which is serialised can be deserialised.", "quantifier": "all type systems, types, values, bytes and limits", "why_tests_cant": "Data near the limit has gigabytes; tests use short data and do not meet the limit at all.", "anchors": ["src/value/decode.rs: strict_deserialize_type", "src/value/encode.rs: strict_serialize_value"]}
{"id": "C113", "title": "Types which differ in names only have the same data", "statement": "If types differ only in the names of types, fields and variants, or in whether fields have names, then the same bytes are data of both, their reading takes the same bytes or fails in the same way, and the values read have the same encoding.", "quantifier": "all pairs of type systems, types (recursive ones included) and byte strings", "why_tests_cant": "Tests rename a type or two; the claim is about types of any depth, which may be recursive, and about data which is not valid too.", "anchors": ["src/value/decode.rs: strict_read_type", "src/value/encode.rs: strict_write_value", "README.md: type equivalence"]}
{"id": "C114", "title": "The data of a part is a part of the data", "statement": "Whatever occurs in a value, at any depth, has its own data as a contiguous piece of the data of the value: this piece alone is read by the type of the part to the same part, and writing the part gives it. Replacing the piece by the data of another value of the type of the part, and nothing else, replaces the part in the value which is read.", "quantifier": "all sane type systems, types, values, byte strings, parts at all depths and replacements", "why_tests_cant": "Tests encode whole values and compare them; that no type (with lengths, tags and restricted strings) makes the bytes of a part depend on where it is used is a claim about all types and depths.", "anchors": ["src/value/decode.rs: strict_read_type", "src/value/encode.rs: strict_write_value"]}
