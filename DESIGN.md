# Formal model of strict-types: design

Target: `/repo` (crate `strict_types`, Rust). Model and proofs: Lean 4.33, under
`lean/Verif/`. Property list: `properties.jsonl`. Status per property: `MANIFEST.json`.
Mutation log: `seeded/LOG.jsonl`.

## 1. Trusted base

* Lean's kernel, and the axioms `propext`, `Classical.choice`, `Quot.sound`. No own axioms, no
  `sorry`, no `native_decide`, no `bv_decide`. `Verif/Audit.lean` prints the axioms of every
  property theorem at build time.
* The reading of the Rust code: every model definition cites the file and lines it models.
* Behaviour of external crates, which are not in the sandbox. They are modelled from their public
  documentation and checked against the binary artefacts shipped in `/repo/stl` (see section 4):
  * SHA-256 is an arbitrary function `H : List Byte → 32 bytes`. No theorem assumes that it is
    injective. Theorems that would need it conclude "... or the hash collides on texts of the case
    at hand". `Clash H tag x y` names the two texts; `Collision H D` is about two texts of the set
    `D` (the texts hashed for the types at hand); `CrateCollision` is about the texts of the types
    and libraries of given crates (Spec/Hash, Spec/World). A collision between arbitrary byte
    strings is never an excuse, since it exists for every `H`. `Props/Witness.lean` gives a hash
    without such collisions for the example crates and for `Std` and `StrictTypes`.
  * `strict_encoding::Variant`: two variants compare equal if the tag *or* the name is equal,
    otherwise they are ordered by tag.
  * `strict_encoding::Primitive`: one code byte; `UNIT=0x00`, `U8=0x01` ... `U64=0x08`,
    `U128=0x10`, `BYTE=0x40`, `I8=0x41` ..., byte size taken from the code.
  * Derived strict encodings: struct fields in order; enum tag byte then fields; collections have a
    little-endian length prefix whose width (1, 2, 3, 4 or 8 bytes) depends on the maximal size;
    ordered sets and maps are rejected on decoding when keys repeat or decrease.
  * `amplify::Confined` rejects collections out of bounds; identifiers are 1 to 100 ASCII
    characters `[A-Za-z0-9_]`.
  * `BTreeMap`/`BTreeSet` are modelled as sorted association lists, `IndexMap` as an insertion
    ordered list, `HashMap`/`HashSet` as duplicate-free lists.
* Memory allocation, stack depth, time, and the wording of error messages are not modelled.

## 2. Conventions of the model

* A function that may panic, return an error or not terminate returns
  `Out ε α = ok a | err e | panic | diverge`. Recursion that the code does not bound takes fuel;
  running out of fuel is `diverge`. Theorems hold for every fuel, or state how much is enough.
* `debug : Bool` distinguishes builds where `debug_assert!` and overflow checks are active.
* When the code violates a property, the violation itself is a theorem (a concrete witness, name
  ending in `_violated`), and what still holds is a theorem ending in `_partial`.

## 3. Properties: model and proof method

| Id | Model | Method |
|----|-------|--------|
| C01 C02 | `SemCommit`: byte string fed to the hash | parse-back injectivity of the pre-image, collision disjunct |
| C03 | same, with inline levels | witness pair with equal pre-image; positive result for same-shape and inline-free types |
| C04 | same | witness; positive result for classes where the second byte separates; for the others the first reference has to carry an id that begins with the name and kind of the named type |
| C05 | `as_wrapped_ty`, `sem_id_unnamed` | code violates the comment: ids differ or collision |
| C06 C07 | library / system pre-image | injectivity; witness that type bodies are not covered |
| C08 | `TranspileRef` commitment vs. `LibRef` commitment | equality for types without named references; witness otherwise |
| C09-C12 | byte-level codec of types, libraries, systems | round trip and canonicity by a small codec algebra; the strings which are read as a type without being its encoding are exactly those which list two variants of the same name (`NamesTwice` in `Spec/TyCodec.lean`, `Lemmas/TyListed`) |
| C13-C16 | `SystemBuilder` as fold over libraries | invariants over the import history |
| C17 C18 | worklist of `extract` | invariant + measure; reachability is an inductive relation |
| C19 C20 | value functions, parametrised by the system | agreement on reachable ids |
| C21-C25 | `SymbolicLib::compile` as passes with fuel | invariants over passes, rank argument for termination |
| C26-C28 | dependency bookkeeping | case analysis, induction over call lists |
| C29-C33 | `strict_write_ty`, `strict_read_type` | independent typing relation; round trip, exactly for values without a part in `Unread` (`Spec/Part`); canonicity, exactly for values without a part in `Overread`; typing of what is read, exactly for values with nothing in `Loose` inside; where reading panics or never ends, exactly, by the places it gets to (`Spec/Reading`); witnesses for violations |
| C34-C40 | `typify` | induction over fuel; witnesses for violations; C37, C38 and C39 are exact: a part in `Refused`, `Incomplete`, `Altered` or `Unfit` (`Spec/Part`) decides |
| C41-C43 | value and type paths | reference semantics by steps; witness for ignored steps; longer paths into values give exactly what the first step leads to |
| C44-C47 | AST accessors and iterators | reference list specification; 255-field overflow witness |
| C48 | unwrap functions | induction over wrapper depth |
| C49 | layout items to tree | tree/pre-order correspondence; witnesses |
| C50-C53 | util, STON, conversions | finite/list reasoning; witnesses |
| C54 | `Dependency` comparison | witness; positive part |
| C55 | `Translate` for `Ty` | map/traverse laws |
| C56 | `rstring_sizing` | arithmetic; overflow witness |
| C57 | `LibBuilder::transpile` on descriptions of Rust types | invariant of the builder over calls, exact contents |
| C58 | `SystemBuilder` | definitions by id; witness through C03 |
| C59 | `StlFormat`, armor-free binary files | readers consume the whole file |
| C60 C61 | decoders of systems and libraries | invariants of decoded containers; witnesses |
| C62 C63 | layout expressions | correspondence of items and fields; witnesses for all optional fields and all tags out of place |
| C64 | `report_compiled` | invariant; witnesses |
| C65-C67 | `buildAll`: builders of several crates, then `SystemBuilder` | meaning of a Rust type without reference to a library; induction over the crates; witness for own types as parameters |
| C68 | `Display` of types, libraries and compiled libraries (one parameter for the texts of ids of types and of libraries) | lexing of texts into items balanced in brackets, induction on syntax trees; witnesses for nested types |
| C69 | `TypeFqn` text form | direct |
| C70 | `TypeSystem::extend` as insertion one by one with the limit of the confined map | lookup of the merged map by induction on the other; values by C20, ids by C07; violated for conflicting ids, full systems and the state on failure |
| C71 | `Display` of value paths and type paths (`Model/PathText`) | splitting off the text of the first step; violated for string keys with braces or spelling other keys, and for variants against fields |
| C72 | accessors of `StrictVal` on values of a type (`Spec/Value`) | newtypes peeled by induction, then by the class of the type; violated for the field of a one-field tuple and for items of byte lists and restricted strings |
| C73 | names and values of labels, text of ranges, lines and indentation (`Model/Vesper`; how lines are put together is vesper-lang, taken from the shipped file) | splitting lines and indentation by induction over expressions; violated for enumeration values called `tag` or `len` and for types with the name of another label |
| C74 | derived `Serialize`/`Deserialize` of the untagged enums `StrictVal`, `StrictNum`, `EnumTag` and of `Blob`, for readable formats (`Model/Serde`; documents are the type of `Model/Convert`) | reading what was written gives what remains of a value, by mutual induction over values; exactly the values with nothing to lose come back; violated for byte strings, enums, non-negative signed numbers, sets, tuples, maps and pairs led by something like a tag |
| C75 | `Model/Serde` with `Model/Typify` | induction over the typing derivation with what remains of the value, exactly for values without a part in `Unrestored` (`Spec/Serde`); violated for byte strings (accepted, but different), sets and maps (no document is accepted), pairs led by something like a tag, and variants named by a letter which is a code |
| C76 | `Model/System`, `Model/Crates`; contents of systems given by `RTy.Entry` in `Spec/Reflect` | ids of the built-in types are hashes of texts which no other definition has (`Lemmas/Sane`); the definitions of a built library are those of the owned Rust types and of the unnamed types embedded in them (`Lemmas/CrateBuild`); that each is found needs definitions with the same id to be the same, as in C58 |
| C77 | `Model/Codec` on systems built by `Model/Crates` and `Model/System`; what a Rust program writes for a value is `RTy.Writes` in `Spec/Reflect`, given without a type system | induction over the Rust type, one layer at a time (`Lemmas/ReflectLayer`); violated for a tuple of a letter and a list of letters, which is taken for a restricted string, and for numbers of 128 bits, which are not read |
| C78 | as C77 | the same induction; violated for arrays of anything but bytes, the writing of which is not implemented |
| C79 | `Model/ByName`: `TypeSpec.ofText`, `SymbolicSys.typify`, `read`, `deserialize`, `typeTree`, `TypedVal` | What a name means is stated by `Means` and `Refuses` (`Spec/ByName`); proved from C69, C16 and, for crates, C67, C77 and C78. Ids which are not in the system mean nothing (`C79_ids`). Violated for types declared twice (C16) |
| C80 | `Model/Crates`, `Model/Transpile`, `Model/System`; no further functions | `RTy.Writes` and `WellTyped`, two specifications written independently of each other, are shown to describe the same values by induction on the Rust type; uniqueness and prefix-freeness (`writes_prefix`) by induction |
| C81 | `typify` (`Model/Typify`), `SymbolicSys.typify`, `TypedVal.serialize` (`Model/ByName`) | Every layer of a Rust value is well typed (C80), and `typify` keeps well-typed layers (C39); by induction on the Rust type. Violated for raw bytes and for `u128` |
| C82 | Model/Refs, Model/Crates, Model/System; texts of ids up to the ids in them in Spec/Apart | `outline_fills`: the text hashed is the outline with ids filled in, by induction on Rust types; texts that are `apart` differ, by induction on outlines; then C58, C67 and C76 without their condition. Counterexample: `enum Either { Left((u8, u8), u8), Right((u8, u8, u8)) }`, for every hash |
| C83 | Model/Stl: Rust types behind `Std` and `StrictTypes`; values of libraries and systems in Spec/Stl | the types are checked node by node by evaluation (`Buildable`, ids `apart`); that a library is written as the derived encoders of these Rust types do is shown by induction on lists and references (`typeLib_writes`); then C79, C81 and C82 |
| C84 | Composition of C66, C67, C77–C82 under conditions on the Rust types only (`Buildable`, `OutlinesApart`, `RTy.Regular`) | `crates_describe`: `ids_apart` supplies the conditions on ids of the other theorems; used for C83 |
| C85 | `StructBuilder` and `UnionBuilder` as state machines (`Model/Builders.lean`): fields with cursor, map of variants, split and fork, parents as a class | The runs equal `RTy.encode` (induction on fields and variants; the parent is a lens); definers which write always panic (`_violated`) |
| C86 | The three printers with the options of the formatter handed on as in the code (keys of maps are printed without them); texts of ids, primitive types and bounds are parameters. | Each text splits into items and gaps in one way only; entries are found by their keys, which end with a colon. Violated for unions shaped as an option with a payload of `none`, for equal names, and for references to named types outside of the system: witnesses. Otherwise the system is determined. |
| C87 | Tagged hashing as in `sha256` with the tag hashed twice (`Model/Hash.lean`), the three tags, and the texts committed to; the hash function is a parameter. | The strings hashed start with the doubled hash of the tag; equal ids of different kinds give a collision of the tags or of these strings. The specification spells these strings out instead of calling the model. |
| C88 | `TypeLib::serialize` and `SymbolicLib::serialize` as functions to a path and contents (`Model/Export.lean`); files, `PathBuf::push` and the armored text are external. | Names and versions are cut at `@` and at the last dot; the header is cut at its lines and at the end of the comment; then C11, C24 and C68. Violated for libraries of 2^24 bytes (an error) and for external types which are not recorded (a panic): witnesses. |
| C89 | `TypeInfo::to_vesper` on the outlines of C49 | For each attribute, where it can come from: the type, the last nested case (which is that of a string), or the values of an enumeration; wrappers and options by induction on the outline; the word an item is shown under, and the name of its type beside it, by cases on its place. |
| C90 | the predicates of `Ty`; `is_char_enum` also for the references of the transpiler (`Model/Shape`) | cases on the value relation of `Spec/Value` against the shapes of `Spec/Shape`; violated: `is_char_enum` looks at the first field of tuples of any length, and differs between references by content and by id |
| C91 | `unwrap_enum`, `From<Option>` (`Model/Shape`), derived conversions of Rust enums as look-ups in the list of variants | lookups unique by distinct names and tags; wrappers by C48; typed values by C72 |
| C92 | derived writers and readers of `ItemCase`, `NestedCase`, `TypeInfo` and `MemoryLayout` (`Model/LayoutCodec`) | read-back by composition of the readers for types, names and options; an invariant of the iterator (`Lemmas/LayoutHeld`) shows that whatever layout the code makes can be written and has the casing of its system; canonicity up to the unions of C10; the value written by the descriptor `Stl.memoryLayout` (C82, C83). Violated: nothing checks the items read, and showing them panics or drops items |
| C93 | the composition of the models of transpiling, compiling, assembling and iterating; the tree of a Rust type is a separate recursion over the Rust type (`Spec/Draw`) | the entries of the assembled system are those of the Rust types (C82), hence the outline of C49 is the tree drawn from the Rust type, by induction on the height; types with options are shown wrongly (C49), hence `_partial` for the text; `C93_strict_types` is the instance for `Std` and `StrictTypes`, with the checks of the descriptors by evaluation |
| C94 | the three programs (`Model/Programs`), composed of the models of the libraries, arguments, exporting, assembling and layouts; files are external | building by C66, read-back by C88 with a bound for the length of the binary form (at most three times the texts of the ids, `Lemmas/Lengths`), source form by C24, the layout by C93 |
| C95 | the derived equality as a recursion over both values (`Model/Val`), with lookup of fields by name | a separate relation (`Spec/Equal`) with a permutation of the fields; induction over values; for typed values by induction over the depth of typing with unique variant and field names; for data by C30 and C32 |
| C96 | errors of `read`, `typify`, `write` (`Model/Codec.lean`, `Model/Typify.lean`); the specification (`Spec/Errors.lean`) says for each error what must be true of a value occurring in the input and a type reached from the expected one | by induction on the depth, an error is either raised at this layer, where its claim is checked, or by a part, whose claim carries over along reachability and occurrence; violated for lists with an absent item type, where the list is named (`C96_named_violated`) |
| C97 | `typify`, `write`, `read` at lists and arrays of `byte` or `u8` and at one-field tuples | by unfolding for arbitrary bounds, lengths and contents; the width of the length prefix is bounded by the type, not by the string |
| C98 | derived encodings of `KeyStep`, `Step`, `Path`, `Cls`, `SemVer` and its fragments, `SymTy` (`Model/PathCodec.lean`) | one notion `Faithful` (read back, canonical, only held objects, prefix only, total), proved once for tagged unions and sequences and composed |
| C99 | `Display for TypedVal` over the texts of values (C52) and of type symbols (`Model/TypedText.lean`) | the last `@` separates, since names and ids have none; then C52 for values of one type |
| C100 | the two crates of `Model/Stl.lean` built and assembled; codes of characters from `Spec/Chars.lean` | the system is known exactly (as for C83); the sets are compared over all 256 bytes, the names by the specification of Rust values (C80) |
| C101 | `typify`, `write` (`Model/Typify.lean`, `Model/Codec.lean`); types which take the values of another type as they are, and endless chains of them, from `Spec/Checking.lean` | one layer asks about smaller values, or about the same value for what the type wraps; induction over the size of the value and, inside, over the wrappers; violated for endless wrappers (`C101_check_violated`), which are shown to be exactly what stops numbers; systems of Rust types have none (`C33_crates_partial`) |
| C102 | `typify` (`Model/Typify.lean`); the ways to write a value, one layer at a time, from `Spec/Notation.lean`, without the conditions of the type, which are those of `Spec/Value.lean` on the value meant | each arm of one layer gives one of the ways and each way is taken by its arm; induction over the layers; both directions (`C102_understood_partial`), number of nested calls (`C102_meant`), no two meanings (`C102_unambiguous`); violated (`C102_violated`): items of a list in excess of the fields of a tuple and repeated entries of a map for a structure are lost without an error |
| C103 | `write` and `read` (`Model/Codec.lean`); the encoding as a relation between values, types and bytes, one layer at a time, from `Spec/Wire.lean`, with numbers as a relation of their own | each arm of writing and of reading gives the bytes of the relation, by induction over the nested calls; the relation has one encoding for each value, and one for every well-typed value, by induction over the layers (`C103_encoding_partial`, `C103_read_partial`); no encoding is the beginning of another (`C103_prefix_free`, by induction, with the sizes of signed numbers of the external `Primitive` as the hypothesis `SignedSizes`); variants given by number and by name are written alike, the declared number first (`C103_tags`); violated (`C103_violated`) for restricted strings declared with the largest number of further characters, where the limit overflows and the length has one byte in place of eight |
| C104 | `read`, `write` and `typify` (`Model/Codec.lean`, `Model/Typify.lean`) with two type systems; extension of types as a relation of types given one of ids, and as an invariant of the systems, from `Spec/Growth.lean` | each arm of reading with the former types gives the same as with the extended ones or the error for an unknown tag, and each arm of writing the same or a panic, by induction over the nested calls (`C104_read_partial`, `C104_write_partial`); values by induction over the layers (`C104_values_partial`); `C104_width_needed` shows that the number of bytes of lengths has to stay; violated for values given as text (`C104_text_violated`, `C104_option_violated`), and outside of these cases each arm of `typify` gives again what it gave (`C104_text_partial`) |
| C105 | `read` (`Model/Codec.lean`); space of values and types whose values take no bytes from `Spec/Space.lean` | the bytes taken and the space are followed through each arm of reading, by induction over the nested calls; every item of a collection pays with its first byte (`C105_space_partial`); types which take no bytes are exactly the weightless ones (`C105_weightless`); violated (`C105_violated`) for collections of such types, which are read in every number the length can tell (`C105_items`). Memory reserved before reading (`Vec::with_capacity`) is modelled only as far as it panics |
| C106 | `SymbolicLib.compile`, `TranspileRef.toLib` (`Model/Compile.lean`), commitments (`Model/Refs.lean`); references of two libraries which stand for the same type from `Spec/Moved.lean` | induction over the rank of names in the first library; the commitments of compiled references agree level by level (`C106_ids`); a library extended by further types keeps its compiled types and ids (`C106_extended`) |
| C107 | `assembleSys` (`Model/System.lean`), `extract` (`Model/Extract.lean`), `typify`, `write`, `read`; reachable types from `Spec/Reach.lean` | types reachable in one system are reachable in the other, by induction over the path; values through the agreement of environments (C20); extracted systems by extensionality (`C107_values_partial`, `C107_extract_partial`); libraries without inline types have the same definitions under common ids or the hash collided (`C107_libraries_partial`); violated (`C107_violated`) for inline types whose texts coincide (C03): data read by one system is refused by the other |
| C108 | `typify`, `write`, `serialize`, `read`; reordering is `Val.Reordered` of `Spec/Reorder.lean`: neighbours in one set or map exchanged, any number of times | violated: the order given is kept (`C108_violated`), and every change of order changes the bytes and the value (`C108_bytes_violated`, through C95 and C103); what holds by induction over exchanges: the type (`C108_typed_partial`), acceptance (`C108_accepted_partial`), and the bytes up to their places, for values of whatever type and form (`C108_written_partial`) |
| C109 | `read`, `deserialize` (`Model/Codec.lean`) | every reader either reports the end of the data or gives the same outcome with the rest longer by what follows (`Blind`, `Lemmas/Cut.lean`), by induction over the layers and the composition of readers; no assumption on the type system |
| C110 | everything which takes `debug` (`Model/Codec.lean`, `Extract`, `System`, `Compile`, `Transpile`, `Crates`, `Tree`, `Programs`) | the outcome with checks is a panic or the one without (`Below`, `Spec/Builds.lean`), by composition of outcomes; violated (values, pairs with unbounded lists, restricted strings from zero characters on, types of 255 fields, types mentioning each other); agreement for systems without unbounded pairs, for well-typed values, for types of less than 255 parts and for compiling which ends |
| C111 | `write`, `read` (`Model/Codec.lean`), `buildAll`, `assembleSys` | the numbers by recursion over the declarations (`Spec/Confined.lean`); written and taken bytes are the format of `Spec/Wire.lean`, whose length is bounded by induction over layers; violated (types containing themselves; sizes are not checked when reading); existence by rank and for all types of crates, uniqueness, fixed sizes; attained by values built for each type (no sets and maps) |
| C112 | `serialize` (`Model/Codec.lean`), `deserializeLimited` (`Model/Limit.lean`) | data within the limit by locality of reading; types within the limit by C111 and C29; violated (a byte string of the largest length its type admits has four bytes of length more than the reader accepts) |
| C113 | `read`, `deserialize` (`Model/Codec.lean`); `Renaming` (`Spec/Names.lean`) is a relation between ids closed under taking parts | by induction over the steps of reading, for any such relation; encodings by C103; violated (a character and a list of characters is a restricted string only if the fields have no names, which has another format) |
| C114 | `read`, `write`, `deserialize` (`Model/Codec.lean`); `Inside` (`Spec/Place.lean`) are parts at all depths, `Swap` (`Spec/Swap.lean`) is the replacement of one occurrence | reading and writing by induction over the depth, from the layers; replacing by induction over `Swap`, with readers which agree on all but the replaced piece |

### What the model covers, by module

* `Model/Basic`: bytes, little-endian numbers, names, ids, outcomes, ordered maps.
* `Model/Ast` (`src/ast/ty.rs`, `iter.rs`, `path.rs`, `translate.rs`): types, accessors, iterators,
  paths, `Translate`.
* `Model/Refs` (`src/ast/id.rs`, `src/typelib/id.rs`, `src/typesys/id.rs`, `src/typelib/type_lib.rs`):
  reference types, the exact strings hashed, libraries. Ids in text form (baid64) are external.
* `Model/Compile` (`src/typelib/compile.rs`, `symbolic.rs`, `translate.rs`): compilation with its passes
  (fuel), back translation, `compile_symbols`. Hash maps are association lists in arbitrary order.
* `Model/Transpile`, `Model/Crates` (`src/typelib/transpile.rs`, `src/stl.rs`): a Rust type is what its
  derived `strict_encode` calls on a `TypedWrite` (`RTy`). Recursive Rust types have no such
  description. The equality of variants decides whether two types are equal, as in the code. In a
  `BTreeMap` with this equality the place of a variant may depend on the tree for more than 11
  variants with repeated names; theorems assume distinct tags where that matters.
* `Model/Builders` (`src/typelib/transpile.rs:284-715`): the builders of structs and unions call by call; the writers
  of `strict_encoding` inside them are reduced to the declared and defined variants and assumed to accept the calls.
* `Model/Stl` (`src/stl.rs`): the Rust types behind the libraries `Std` and `StrictTypes`; the parts external to
  the repository are taken from `stl/*.stl`, and `Golden.lean` compares the libraries built with these files.
* `Model/System` (`src/typesys/translate.rs`, `symbols.rs`, `type_sys.rs`): import and `finalize`.
* `Model/ByName` (`src/value/typify.rs`, `decode.rs`, `src/typesys/symbols.rs`): functions of symbolic systems taking
  names.
* `Model/Extract` (`src/typesys/type_sys.rs`): the worklist, with fuel.
* `Model/TyCodec` (`src/ast/encoding.rs` and the derives): the binary form. The reader stops at the
  confinement limits as `strict_encoding` does; sets and maps are refused when keys do not increase.
* `Model/Val`, `Model/Codec` (`src/value/val.rs`, `encode.rs`, `decode.rs`): values and their binary form.
  Sizes of primitives and the measure used for the array limits are functions of the model; the writer
  never fails (a `Vec`), the limit of 4 GiB of the stream writers is not modelled, so theorems about
  strings say so (`below 4 GiB`). `Model/Limit`: deserialising with the limit of the stream reader, which is assumed to fail
  beyond it as at the end of the data.
* `Model/Typify` (`src/value/typify.rs`), `Model/Ston` (`src/value/ston.rs`), `Model/Convert`
  (`src/value/convert.rs`; documents of `serde_json`, `serde_yaml` and `toml` are inductive types).
* `Model/Tree` (`src/typesys/iter.rs`, `src/layout`): walking, layout, expressions (`vesper` is external;
  the tree of expressions is modelled here, its text in `Model/Vesper`).
* `Model/Util` (`src/util.rs`, `src/typelib/serialize.rs`): formats and versions.

* `Model/Serde` (`src/value/val.rs`): values through `serde` in a readable, self-describing format. How derived
  untagged enums are read (variants in order, exact length of tuples, strings and integers only for their types)
  is `serde`; documents of `u1024` and `i1024` are parameters (`BigNums`).
* `Model/Vesper` (`src/layout/vesper.rs`): labels and the text of layouts.
* `Model/PathText` (`src/value/path.rs`, `src/ast/path.rs`): the text of paths.
* `Model/Text` (`src/ast/ty.rs`, `src/typelib/serialize.rs`, `symbolic.rs`, `type_lib.rs`): the text of types and
  libraries (`Display` without formatter options). Texts of primitive types, bounds, ids and mnemonics come from other
  crates and are parameters (`Glyphs`); `Spec/Text` has the ones seen in the shipped files.
* `Model/SysText` (`src/typesys/type_sys.rs`, `symbols.rs`, `translate.rs`, `src/ast/ty.rs`): the texts of type
  systems, symbols and symbolic systems (`Display`). The texts of ids are parameters (`IdGlyphs`).
* `Model/LayoutCodec` (`src/layout/memory.rs`, `src/typesys/iter.rs`, `src/ast/ty.rs`): the derived strict encoding of
  layouts, their items, places and wrappers.
* `Model/Shape` (`src/ast/ty.rs`, `src/value/val.rs`, `src/typelib/type_lib.rs`): small functions on types, variants
  and values. `from_variant_name` and `TryFrom<u8>` of a Rust enum (derived) are look-ups in its variants.
* `Model/Export` (`src/typelib/serialize.rs`): where libraries are exported to and what is written. Files,
  `PathBuf::push` and the armored form are external.

* `Model/Programs` (`src/bin`, `src/stl.rs`): the three programs; the directory `stl` exists and files can be written.

Not modelled: armor, base64 and baid64, `serde` derives other than those of values. `tools/coverage.py` lists the functions of `/repo/src` no definition cites.

The toy hash of `Spec/Example.lean` is used in examples only.

## 4. Checking the model against shipped artefacts

`tools/golden.py` parses `/repo/stl/*.stl` with the wire format assumed by the model and recomputes
library ids and semantic ids with real SHA-256. The ids of both libraries equal the constants in
`src/stl.rs`, and the ids of `AlphaLodash` and `AlphaNumLodash` equal the constants in
`tests/dependencies.rs`.

`lean/Verif/Golden.lean` runs the functions of the model itself, with SHA-256 for the hash, on the files in
`/repo/stl` (`lake env lean --run Verif/Golden.lean /repo/stl` in `lean`, about half an hour). No proof uses it. It
reports that

* both `.stl` files decode with `decodeTypeLib`, encode back to the same bytes, and have the ids in `src/stl.rs`;
* the source form of both libraries (`SymbolicLib.text`) is the shipped `.sty` file, up to the mnemonic words of
  ids (external), and all types in them meet the hypothesis of `C68_shown_partial`;
* `to_symbolic` followed by `compile` returns both libraries;
* the library `Std` built from its enums, and the library `StrictTypes` built by the transpiler from the Rust types
  listed in `src/stl.rs:82-99`, written down as `RTy` values, are the shipped libraries (all 59 types);
* the system of both libraries has 172 types and its binary form decodes as the same system;
* both `.stl` files, read as *values* of the type `StrictTypes.TypeLib`, pass `typify` unchanged and are written back
  as the same bytes;
* the layout of `TypeLib` is the shipped `TypeLib.vesper`, line by line (40379 lines). The file shows
  `tag` 2 for the variant `enum` whose tag is 3: the violation of C63 in an artefact of the project;
* the model of the three programs of `src/bin` writes the five files in `/repo/stl`, the source files up to mnemonics
  and ids.

## 5. Mutation testing

`tools/mutate.py` applies one edit to a copy of the model, rebuilds and reports the theorems that fail;
`tools/log.py` turns its output into `seeded/LOG.jsonl`. Edits that no theorem notices are either
equivalent on the inputs the code can have (noted in the log) or led to a stronger theorem (field
`tightened`).
