{
 "C03": "Violated by the code for types of different shape (witnesses); proved for types of the same shape.",
 "C04": "Violated by the code for tuples and collections (witness); proved for the other classes and for most name lengths; for tuples and collections a common id needs a referenced id which was made to begin with the name and the kind of the named type (C04_forged_partial).",
 "C05": "Violated by the code: ids of newtype and wrapped type always differ (unless the hash collides).",
 "C07": "Violated by the code: definitions are not covered (witness); ids are; proved in full for self-identified systems.",
 "C08": "Violated for types with named references (witness); proved for all others, at any depth.",
 "C10": "Violated for enums and unions with repeated variant names (witnesses); proved: the encoding is the only shortest string that decodes as a well-formed type; whatever is read as a type over semantic ids is its encoding unless it lists two variants of the same name, and this is the exact condition for well-formed types.",
 "C13": "Violated only for types with 255 references in builds with overflow checks (finalize panics); everything else proved in full.",
 "C14": "Violated: the check of finalize looks up the wrong id (witness for every hash); proved: unresolved references are exactly references of the libraries which no library declares.",
 "C15": "Violated because of C03 (witness for every hash); ids, imported libraries and outcome are proved to be independent of the order, and so are the types if definitions with the same id agree, in particular without inline types.",
 "C16": "Soundness of resolve and lookup proved in full; completeness violated for types declared twice and for two versions of a library (witnesses), proved otherwise.",
 "C17": "Violated only for reachable types with 255 references in builds with overflow checks (witness); the exact condition of success, the result, the errors and termination are proved for all systems of well formed types.",
 "C23": "Violated: bad references lead to a panic or to non-termination, never to an error; proved that such libraries never compile.",
 "C24": "Proved for all compiled libraries with recorded symbols; violated for libraries changed after compilation.",
 "C29": "Violated in four ways (witnesses); proved exactly: in a sane system a well-typed value is written and read back if it has no part listed in `Unread`, and is never read back if it has one. Limits of serialising in memory included.",
 "C30": "Violated in two ways (witnesses); proved exactly: what is read is written to the same bytes if it has no part listed in `Overread`, and is never written if it has one. A version by type systems too.",
 "C32": "Violated for sizes, distinctness and alphabets (witnesses); proved exactly: in a sane system a decoded value is well typed if and only if nothing in it is listed in `Loose`; the shape of decoded values is proved for all of them.",
 "C33": "Violated for unicode characters, cyclic systems and length prefixes of 8 bytes (witnesses). Proved exactly: on which types and bytes reading panics, never ends or returns. For the types of Rust crates it returns.",
 "C34": "Violated for arrays (witness), and it is stated exactly how far: an array of every number of items up to its length is accepted; proved for lists, sets, maps and the upper bound of arrays.",
 "C36": "Violated for integers shorter than 64 bits (witness); proved that writing then reading returns the number exactly if it is in range.",
 "C37": "Violated for the forms listed in `Refused` (witnesses); proved exactly: the result of typify is serialised if it has no such part, and never if it has one.",
 "C38": "Violated for incomplete tuples and structs (witnesses); proved exactly: the result of typify is kept if it has no part listed in `Incomplete`, and is not kept if it has one.",
 "C39": "Violated for decoded values that break constraints and for raw bytes (witnesses); proved exactly: in a sane system a decoded value is kept if and only if it has no part listed in `Unfit` or `Altered`; the same for all well-typed values with `Altered` alone.",
 "C41": "Violated for paths of two and more steps (witness); proved for shorter paths, and what longer paths give instead: the part the first step leads to.",
 "C42": "Violated for paths of two and more steps and for tuples (witnesses); proved otherwise, with the exact answer given for longer paths: every step is taken from the root.",
 "C44": "Violated for the item cases of tuples and for 255 references in builds with overflow checks (witnesses); proved otherwise.",
 "C47": "Types proved in full; values violated for payloads that are null, pairs or unions (witnesses), proved exactly: what is made of these, and the claim otherwise.",
 "C49": "Violated with optional types (witnesses); proved without them; items and the panic for more than 2^32 - 1 of them proved for all types; the order of items in the text proved with optional types below the root.",
 "C51": "Violated (witnesses): the two kinds of fragments are displayed in the wrong places and build kinds are not distinguished; exact conditions proved.",
 "C52": "Violated for strings with quotation marks and across types (witnesses); proved for values of one type otherwise.",
 "C53": "Violated for floats, dates and YAML tags (witnesses); proved for all other documents.",
 "C54": "Violated: equality of dependencies is not transitive and equal dependencies may hash differently (witnesses); proved where ids and names agree.",
 "C56": "Violated for the largest size (witness); proved for all other sizes.",
 "C58": "Violated because of C03 (witness for every hash); proved if definitions with the same id agree, in particular without inline types.",
 "C60": "Violated: incomplete systems and wrong ids are decoded (witnesses); order and limits proved.",
 "C61": "Violated for systems of more than 490 types (witness with 491, so the bound is exact); proved up to 490.",
 "C62": "Violated for optional fields (for all of them); proved for all others.",
 "C63": "Violated for all variants whose tag is not their position; proved for all others.",
 "C64": "Violated for types of fields and for enums (witnesses); proved for types transpiled directly, up to variants that agree in tag or name only (a separate relation).",
 "C65": "Violated for generic types of another library applied to types of the library being built (witness for every hash); proved for layered crates.",
 "C67": "Completeness proved in full; definitions and names under the conditions which C58 and C16 need.",
 "C68": "Violated for nested tuples, optional tuples, payloads of none, names of primitive types (witnesses); proved for types, libraries and compiled libraries without these, up to ids of external types, which are not shown in the source form.",
 "C70": "Violated for different definitions under one id (replaced silently), for full systems, and for the state after failure (witnesses); contents, success, references and ids proved in full; values and order proved for systems which agree on common ids, which systems with own ids do (or the hash collides).",
 "C71": "Violated for string keys with closing braces or spelling numbers or bytes, and for fields against variants (witnesses); keys with the same text characterised exactly; proved for value paths without such keys and for type paths which exist in a type.",
 "C72": "Violated for one-field tuples (panic, or a field of the field) and for items of byte lists and restricted strings (witnesses); structs, unions, enums, options, numbers, strings and maps proved in full; tuples of other sizes and items of other lists and sets.",
 "C73": "Labels are not told by their text if a value of an enumeration is called tag or len, or a type has the name of another label (C73_labels_violated). Proved for all other labels, for all layouts with them, and for the types they show; ranges are told without condition.",
 "C74": "Partial: the code violates the claim (untagged variants), C74_values_violated. Proved: every document is read, exactly which values come back, a second trip loses nothing, and exactly when two values share a document. Assumes that documents of big numbers (external crate) are not those of other parts.",
 "C75": "Violated for byte strings, sets, maps, pairs led by something like a tag and one-letter variants (witnesses); proved exactly: a well-typed value of a sane system is restored if it has no part listed in `Unrestored`, and never if it has one.",
 "C76": "The system contains nothing but the described types; that each is found under its id needs definitions with the same id to be the same (see C58).",
 "C77": "Conditions: definitions with the same id are the same, no tuple looks like a restricted string (the code misreads it, C77_read_violated), numbers up to 64 bits (reading others is not implemented, C77_u128_violated), collections below 2^32 items.",
 "C78": "Conditions of C77 (but numbers up to 128 bits are covered), and no arrays of anything but bytes: writing them is not implemented and panics (C78_array_violated).",
 "C79": "Violated: a type which two libraries declare under the same name is refused by the name of the library imported first (C16). Missing from the results on crates: such types, types also found unnamed inside of others, and what is missing from C77 and C78.",
 "C80": "Missing: systems with two definitions under one id (C58), tuples which look like restricted strings (C77), integers of more than 128 bits, collections declared for 2^32 items and more.",
 "C81": "Violated: a raw byte (`Byte`) becomes a signed number; values of `u128` are refused (C81_u128_violated). Signed numbers of 128 bits are covered. Missing otherwise: what is missing from C77, C78 and C79.",
 "C82": "Violated: tuples nested in tuples can have the same id though they are different, and then values are misread. Missing: crates with types not told apart by the comparison used (it looks at lengths only when a byte stands against an id).",
 "C84": "Proved for all crates of regular, distinguishable types. Missing are the kinds of types for which C77, C78, C81 and C82 are violated, among them numbers of more than 64 bits.",
 "C85": "Violated for definers which go on to write: completing always panics (theorem for all fields); proved for the calls derived for structs, tuples, enums and unions.",
 "C86": "`C86_system_partial`, `C86_symbolic_partial`: same text, same system, under the conditions excluded by the witnesses (payload of `none` in unions shaped as an option is one fixed type; full names stand for one type each; the system is complete). Libraries of a symbolic system are shown by `Symbols` only, by name and mnemonic. The texts of ids are assumed to be chunks with dashes and different for different ids.",
 "C88": "Proved: paths are different for different names, versions or formats; binary files below 2^24 bytes are read back; source files determine id, name, version with header, and the shown library. The same for symbolic libraries. Violated: libraries of 2^24 bytes or more cannot be exported in binary form, and the source form of a library with an unrecorded external type panics (witnesses). Missing: definitions which the text does not show (C68) and headers which contain the end of a comment; compiled libraries up to the room of C24.",
 "C90": "Violated: is_char_enum takes a pair with a character in front for an enum of characters, and a newtype of an enum of characters for one only while it is defined in place (witnesses). Proved: the partition of types, the shapes of values, the ends of unions; is_char_enum where no tuple of several fields is in the way. Exactly what is recognised: characters in front, through tuples of any length.",
 "C92": "What is read is not checked: files of no items or of several roots are accepted, and showing them panics (C92_display_violated).",
 "C93": "The text shown is proved for types without options (with options it is wrong, see C49).",
 "C96": "Reading a list whose item type is absent names the list type, which is in the system.",
 "C99": "Violated for results of typify: absent options given by tag or by name, and items of arrays, which are not looked at (witnesses). Types are told in full; values which were read are told if their strings have no quotation marks (C52).",
 "C101": "Violated for tuples of one field and options which wrap each other without an end (witness); proved otherwise. Writing is proved in full.",
 "C102": "`typify` drops the items of a list in excess of the fields of a tuple and all but the last of repeated entries of a map given for a structure (`C102_violated`). `C102_understood_partial` is exact for values without repeated names; the items in excess are visible in it as `more`.",
 "C103": "The limit of a restricted string whose tail is declared for 2^64 - 1 characters overflows: a length of one byte in place of eight in builds without overflow checks, a panic in others (`C103_violated`). Other restricted strings and all other types are covered.",
 "C104": "A variant whose tag is the code of a letter changes how a text of this letter is understood, which before named another variant, and an optional type with a further variant is no longer optional (`C104_text_violated`, `C104_option_violated`); all other values given are understood as before. Reading, writing and being a value are covered for all types.",
 "C105": "Violated for lists, sets and maps of items which take no bytes (`C105_violated`, `C105_items`); proved for all other systems, and for strings of all systems. Memory reserved for announced items which do not follow is not counted.",
 "C106": "Ids are compared for libraries which compile; when they do is C22.",
 "C107": "Violated for inline types whose texts coincide (`C107_violated`, from C03). Proved for libraries without inline types, and for all systems with the same definitions under common ids.",
 "C108": "Violated: sets and maps are kept, compared and written in the order given, so one set has many encodings, and a set of sets may have one set twice. Proved: type, acceptance, and the bytes up to their places do not depend on the order.",
 "C109": "For data in memory without the limit of 4 GiB of the reader, which C112 is about.",
 "C110": "Violated: with checks, some inputs panic which are processed without. What holds: a check never leads to another answer, for every function modelled; where both agree is stated for data, well-typed values, systems and compiling.",
 "C111": "Violated: a type may contain itself, then there is data of every length; the decoder takes more items than declared, up to what the length can express. What holds: the lengths of written and of read data for all types which have bounds, their existence in systems without cycles and for the types of crates, and their uniqueness; that they are attained (the best possible) for systems without sets and maps, and a set for which they are not.",
 "C112": "Violated: byte strings of nearly 4 GiB are written and not read back. What holds: agreement with the unlimited functions for all data within the limit, rejection beyond it, and round trip for types within the limit. That the external reader fails beyond its limit as at the end of the data is assumed.",
 "C113": "Violated for fields with and without names which make a restricted string: the same bytes are data of one type and not of the other. Holds for all other types of sane systems, recursive ones included. Values which are read back when written (C29) are written as data of the other type.",
 "C114": "Proved for sane systems; for writing, of well-typed values (whose replaced parts may be any values). Characters of restricted strings and of text, and bytes of byte strings, are not parts."
}
