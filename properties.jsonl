{"id": "C01", "title": "Print-then-parse round trip", "statement": "For every Json value whose numbers are finite, parsing the text produced by to_string yields a value equal to the original (same members, same duplicates in the same order, bit-identical numbers). KNOWN FALSE as stated: a string containing unbalanced brackets nested in an array/object breaks it; proved exactly for the values where it holds, with the failing ones characterised.", "quantifier": "all Json trees of any depth and width, all strings, all finite f64", "why_tests_cant": "the value space is infinite and failures depend on characters inside nested strings", "anchors": ["src/lib.rs: Json::to_string, Json::parse, Json::_parse, parse_array, parse_object, escape"]}
{"id": "C02", "title": "to_string emits valid JSON that denotes the value", "statement": "For every Json value with finite numbers, to_string returns a text of the RFC 8259 grammar, and the value that RFC text denotes (members in order, duplicate keys kept) is the printed value.", "quantifier": "all Json trees with finite numbers", "why_tests_cant": "needs a grammar membership argument for every tree and every character", "anchors": ["src/lib.rs: Json::to_string, escape, hex"]}
{"id": "C03", "title": "Printed text is printable ASCII", "statement": "Every character of to_string's output for a value with finite numbers lies in U+0020..U+007E, whatever Unicode the strings contain, so the output can be embedded in any ASCII-compatible channel.", "quantifier": "all Json trees, all Unicode scalar values", "why_tests_cant": "1.1M scalar values in every position of unbounded trees", "anchors": ["src/lib.rs: escape, hex, HEX_TABLE, Json::to_string"]}
{"id": "C04", "title": "Printing is deterministic and independent of hash order", "statement": "Two values that are equal up to the (random) iteration order of their hash maps print to the same text; members appear in ascending byte order of their keys, duplicates oldest first.", "quantifier": "all pairs of Json trees that differ only by the iteration order of any of their maps", "why_tests_cant": "hash seeds are random per process; tests only see the orders that happen to occur", "anchors": ["src/lib.rs: Json::to_string (sort_by), Json::Object"]}
{"id": "C05", "title": "Any string survives encode/decode", "statement": "For every Unicode string s, decode::<String>(&encode(s)) returns s.", "quantifier": "all strings of any length over all Unicode scalar values", "why_tests_cant": "infinite input space; surrogate pairs and control characters take separate branches", "anchors": ["src/lib.rs: escape, hex, parse_string, parse_hex_digit, encode_utf8"]}
{"id": "C06", "title": "String literal decoding is exactly RFC 8259", "statement": "A text starting with a quote is accepted as a string iff it is an RFC 8259 string literal in which every \\u surrogate is part of a high/low pair, followed only by whitespace; the returned string is the one the literal denotes. Everything else is a ParseStringError.", "quantifier": "all texts beginning with a quote", "why_tests_cant": "must hold for every malformed as well as well-formed literal", "anchors": ["src/lib.rs: parse_string, parse_hex_digit, encode_utf8"]}
{"id": "C07", "title": "\\u escapes produce the right code point or an error", "statement": "The UTF-8 bytes built for a code value decode to exactly that code point when it is a Unicode scalar value, and are rejected by UTF-8 validation when it is a surrogate; surrogate pairs combine to the code point RFC 8259 prescribes, for all 1024x1024 pairs.", "quantifier": "all 16-bit code units and all surrogate pairs", "why_tests_cant": "more than a million combinations and bit arithmetic at every boundary", "anchors": ["src/lib.rs: encode_utf8, parse_string"]}
{"id": "C08", "title": "Every RFC 8259 document is accepted with its value", "statement": "For every RFC 8259 text, parse returns the value the text denotes. KNOWN FALSE as stated (`[ ]`, `{ }`, unbalanced brackets inside nested strings, numbers beyond f64); proved for every text without these features, and the counterexamples are proved.", "quantifier": "all RFC 8259 texts: any nesting, any insignificant whitespace, any escapes", "why_tests_cant": "unbounded grammar", "anchors": ["src/lib.rs: Json::parse, parse_array, parse_object, parse_number, parse_string"]}
{"id": "C09", "title": "Parsing valid JSON never returns a wrong value", "statement": "On every RFC 8259 text, parse either returns exactly the denoted value or an error - never a different value - even though the container scanner miscounts brackets inside strings.", "quantifier": "all RFC 8259 texts", "why_tests_cant": "silent corruption would need an adversarial text; no finite test set excludes it", "anchors": ["src/lib.rs: parse_array, parse_object, Json::_parse"]}
{"id": "C10", "title": "Surrounding whitespace is irrelevant", "statement": "Adding or removing any run of space, tab, LF, CR before or after a text does not change parse's result (value or error).", "quantifier": "all texts, valid or not, and all whitespace runs", "why_tests_cant": "quantifies over every text", "anchors": ["src/lib.rs: Json::parse, is_whitespace"]}
{"id": "C11", "title": "null/true/false are recognised exactly", "statement": "parse returns Null iff the trimmed text is `null`, Boolean(true) iff it is `true`, Boolean(false) iff it is `false`.", "quantifier": "all texts", "why_tests_cant": "the converse direction ranges over all texts", "anchors": ["src/lib.rs: _parse, parse_null, parse_boolean"]}
{"id": "C12", "title": "Number syntax and range", "statement": "Every RFC 8259 number literal whose f64 value is finite is accepted with that value; every accepted number is finite; a text starting with '-' or a digit is accepted iff it is finite and a JSON number literal, possibly with superfluous leading zeros and then possibly with an empty fraction (`01.`). (Strict RFC exactness is false: leading zeros are accepted.)", "quantifier": "all texts starting with '-' or a digit", "why_tests_cant": "infinite literals; interplay of two different validators (valid_number and f64::from_str)", "anchors": ["src/lib.rs: parse_number, valid_number"]}
{"id": "C13", "title": "Parsing always terminates with Ok or Err", "statement": "parse terminates without panicking on every text: the recursive calls always receive strictly shorter texts, so recursion depth is bounded by the text length.", "quantifier": "all texts", "why_tests_cant": "termination cannot be observed by tests", "anchors": ["src/lib.rs: _parse, parse_array, parse_object, parse_string"]}
{"id": "C14", "title": "Parsed values are well formed", "statement": "A value returned by parse contains only finite numbers and at most one map entry per key, at every depth.", "quantifier": "all texts and all positions in the result", "why_tests_cant": "quantifies over all accepted texts", "anchors": ["src/lib.rs: parse_number, object_insert"]}
{"id": "C15", "title": "Malformed JSON is rejected", "statement": "A text that is not RFC 8259 JSON is rejected. KNOWN FALSE (`[]x`, `{}x`, `[1 2]`, `{\"a\":1:2}`, `01`); the counterexamples are proved, and rejection is proved for the classes the code does guard: garbage after strings and after non-empty containers, missing closers, trailing/doubled commas, missing colons/values, non-string keys.", "quantifier": "all texts in the named malformed classes", "why_tests_cant": "infinitely many malformed texts", "anchors": ["src/lib.rs: parse_array, parse_object, valid_number"]}
{"id": "C16", "title": "Duplicate members are kept in document order and the last one wins", "statement": "After parsing an object, index_and_merge(k) lists exactly the values of the members named k in text order, and get/index/find by key return the last of them; to_string prints them again in that order.", "quantifier": "all objects with any number of members and duplicates", "why_tests_cant": "unbounded histories of inserts", "anchors": ["src/lib.rs: parse_object, object_insert, index_and_merge, Finder::find, Json::to_string"]}
{"id": "C17", "title": "Object operations behave like an ordered multimap", "statement": "For every sequence of insert/append/delete on an object, the object behaves like the abstract map from keys to non-empty value histories: append adds at the end, insert replaces the history by one value, delete forgets the key; lookups of other keys never change.", "quantifier": "all operation sequences of any length, all keys and values", "why_tests_cant": "unbounded operation histories", "anchors": ["src/lib.rs: insert, append, add_option, delete, index_and_merge, object_insert"]}
{"id": "C18", "title": "Array operations behave like a list", "statement": "For every sequence of push/replace/remove on an array, the contents equal those of an abstract list; replace out of range is an IndexOutOfRange error leaving the array unchanged; remove out of range panics (it never silently changes the array).", "quantifier": "all operation sequences, all indices", "why_tests_cant": "unbounded operation histories", "anchors": ["src/lib.rs: push, replace, remove"]}
{"id": "C19", "title": "Operations of the wrong kind fail and change nothing", "statement": "insert/append/delete on a non-object and push/replace/remove on a non-array return InvalidValueKind and leave the value unchanged; index_and_merge on a non-object returns InvalidValueKind and on a missing key MissingKey.", "quantifier": "all values and arguments", "why_tests_cant": "all values", "anchors": ["src/lib.rs: add_option, delete, push, replace, remove, index_and_merge"]}
{"id": "C20", "title": "get after set returns the value set", "statement": "After a successful set(path, v), get(path) returns v, and the reference returned by set refers to v.", "quantifier": "all documents, all paths, all values", "why_tests_cant": "paths interact with existing structure at each level in many ways", "anchors": ["src/lib.rs: Json::set, Json::get, Path::update, Finder::update, Path::find"]}
{"id": "C21", "title": "set succeeds on every syntactically valid path", "statement": "set returns Err only for an invalid path. KNOWN to fail otherwise only by panicking when an index is so large that the array cannot be allocated / index+1 overflows; proved: for every valid path whose indices are below the allocation limit set succeeds on every document, and an index of usize::MAX panics.", "quantifier": "all documents and paths", "why_tests_cant": "all documents and paths", "anchors": ["src/lib.rs: Path::update, Finder::update, parse_path"]}
{"id": "C22", "title": "set leaves unrelated paths alone", "statement": "If get(q) succeeded before set(p, v) and p and q diverge at some component (different keys of one object or different indices of one array), get(q) returns the same value afterwards; older duplicates of keys along the way are kept.", "quantifier": "all documents, all pairs of diverging paths", "why_tests_cant": "non-interference ranges over pairs of paths in arbitrary documents", "anchors": ["src/lib.rs: Path::update, Finder::update, Finder::find_mut"]}
{"id": "C23", "title": "set builds missing structure exactly as documented", "statement": "Setting an index beyond an array's end pads with null up to the index; setting a key/index on a value of another kind replaces that value by a fresh object/array holding only the new member (padded with null); intermediate missing components are created.", "quantifier": "all documents, keys, indices", "why_tests_cant": "all lengths and kinds", "anchors": ["src/lib.rs: Finder::update, Path::update"]}
{"id": "C24", "title": "del returns and removes exactly the addressed value", "statement": "A successful del(path) returns the value get(path) returned before; the object loses exactly that key (with all its duplicates) / the array loses exactly that element with later ones shifting down; nothing else changes. Afterwards get on a key path fails with MissingKey.", "quantifier": "all documents and paths", "why_tests_cant": "all documents and paths", "anchors": ["src/lib.rs: Json::del, Path::discard, Finder::discard"]}
{"id": "C25", "title": "Failed get/del leave the document unchanged, with the documented error kind", "statement": "get and del fail iff some component is missing; the error is MissingKey, IndexOutOfRange or InvalidValueKind according to the first failing component; a failing del leaves the document unchanged, get and del fail on the same paths.", "quantifier": "all documents and paths", "why_tests_cant": "all documents and paths", "anchors": ["src/lib.rs: Path::find, Path::discard, Finder::find, Finder::discard"]}
{"id": "C26", "title": "Every key/index path can be written in path syntax", "statement": "For every non-empty list of keys and indices there is a path string that parse resolves to exactly that list, obtained by the documented escapes. KNOWN FALSE for a non-last key ending in a backslash; proved for all other lists, and proved that such lists are inexpressible.", "quantifier": "all lists of arbitrary string keys and 64-bit indices", "why_tests_cant": "keys are arbitrary strings; escapes interact", "anchors": ["src/lib.rs: parse_path", "readme.md: get/set/del"]}
{"id": "C27", "title": "Path syntax errors are exactly the bad indices and the empty path", "statement": "A path string is rejected with PathSyntaxError iff it is empty or some dot-separated component starts with # and the rest is not an unsigned 64-bit integer; otherwise it denotes one finder per unescaped-dot-separated component.", "quantifier": "all path strings", "why_tests_cant": "all path strings", "anchors": ["src/lib.rs: parse_path, Json::get, Json::set, Json::del"]}
{"id": "C28", "title": "Index operators agree with find", "statement": "js[i] / js[k] (also mutable) refer to the value find returns, and panic exactly when find returns an error; assigning through the mutable index changes that value only.", "quantifier": "all values and finders", "why_tests_cant": "all values", "anchors": ["src/lib.rs: Index::index, IndexMut::index_mut, find_mut"]}
{"id": "C29", "title": "Text-level get/set/del agree with the document-level ones", "statement": "json::get/set/del on a text equal parsing, operating on the value, and (for set/del) printing; in particular, for printable documents get(set(text, path, v), path) = v.", "quantifier": "all texts, paths, values", "why_tests_cant": "composition over unbounded inputs", "anchors": ["src/lib.rs: get, set, del"]}
{"id": "C30", "title": "Built-in types round-trip through Json", "statement": "from_json(to_json(x)) = Ok(x) for bool, String, Json, f64, Vec<T>, Option<T> and all their nestings where T round-trips (Option<T> when T never encodes to null).", "quantifier": "all values of all types built from these constructors", "why_tests_cant": "type nesting is unbounded", "anchors": ["src/lib.rs: ToJson/FromJson impls for bool, String, Json, Vec<T>, Option<T>, f64"]}
{"id": "C31", "title": "Option decodes null to None and nothing else", "statement": "decode of Option<T> yields None exactly for null and Some(x) exactly when T decodes to x; an error of T is propagated. Consequently Some(None) of Option<Option<T>> does not round-trip (proved).", "quantifier": "all Json values and all T", "why_tests_cant": "all values", "anchors": ["src/lib.rs: impl FromJson for Option<T>, impl ToJson for Option<T>"]}
{"id": "C32", "title": "Vec<(K,V)> keeps every pair and per-key order", "statement": "Encoding a list of pairs and decoding it again yields a rearrangement of the same pairs in which pairs of equal keys are adjacent and in their original order - for every hash iteration order.", "quantifier": "all lists of pairs, all iteration orders", "why_tests_cant": "hash order is random", "anchors": ["src/lib.rs: ToJson/FromJson for Vec<(K, V)>, object_insert"]}
{"id": "C33", "title": "HashMap<K,V> round-trips", "statement": "Encoding a HashMap and decoding yields the same map, for every iteration order, provided key printing and parsing are inverse; when decoding an object with duplicate keys each key gets its last value.", "quantifier": "all maps, all iteration orders", "why_tests_cant": "hash order is random", "anchors": ["src/lib.rs: ToJson/FromJson for HashMap<K, V>"]}
{"id": "C34", "title": "Integers up to 2^53 are exact", "statement": "Every value of u8,u16,u32,i8,i16,i32 and every 64/128-bit integer of magnitude at most 2^53 survives encode/decode exactly; 2^53+1 does not (proved).", "quantifier": "all integers in range", "why_tests_cant": "2^33+ values and float rounding", "anchors": ["src/lib.rs: number_imp!"]}
{"id": "C35", "title": "Decoding a number to an integer type truncates and saturates", "statement": "Decoding number f to an integer type yields f truncated toward zero clamped to the type's range; it never fails on a number and fails with ConvertError on any other kind.", "quantifier": "all f64 values, all integer types", "why_tests_cant": "all f64 values", "anchors": ["src/lib.rs: number_imp!"]}
{"id": "C36", "title": "Conversion errors are typed and all-or-nothing", "statement": "Decoding a value of the wrong kind yields ConvertError; decoding an array to Vec<T> succeeds iff every element decodes, preserving order and length, and otherwise returns the first failing element's error.", "quantifier": "all Json values, all element types", "why_tests_cant": "all values", "anchors": ["src/lib.rs: FromJson impls"]}
{"id": "C37", "title": "encode/decode round trip on typed values", "statement": "decode(encode(x)) = Ok(x) for values of bool, String, integers within 2^53, f64, Vec, Option, HashMap whose nested strings have balanced brackets.", "quantifier": "all such values", "why_tests_cant": "unbounded nesting", "anchors": ["src/lib.rs: encode, decode"]}
{"id": "C38", "title": "Equality of Json values", "statement": "== on Json is reflexive exactly on values without NaN, symmetric, transitive on NaN-free values, independent of hash order, and compares duplicate histories in order.", "quantifier": "all pairs/triples of values", "why_tests_cant": "all pairs of values", "anchors": ["src/lib.rs: derive(PartialEq) for Json"]}
{"id": "C39", "title": "Derived encoding emits exactly the non-ignored fields", "statement": "For every struct with named fields whose types, parameters and attributes are of the forms the macros understand (Spec.Struct), the derived to_json is an object that has, for every field without #[ignore], a member named by its first #[key] (default: the field name) holding the field's encoding, and no other member; the impl is for the declared type with the declared generics, arguments and where clauses. Enums, tuple, unit and empty structs are refused at compile time.", "quantifier": "all structs (lists of fields with attributes) and all field values", "why_tests_cant": "all struct shapes", "anchors": ["json_derive/src/lib.rs: json_encode", "src/lib.rs: add_option"]}
{"id": "C40", "title": "Derived decode inverts derived encode", "statement": "For every struct whose field keys are distinct and whose field types round-trip, the derived from_json of the derived to_json returns the struct with ignored fields set to Default. With two fields sharing a key it does not (proved).", "quantifier": "all structs and field values", "why_tests_cant": "all struct shapes", "anchors": ["json_derive/src/lib.rs: json_encode, json_decode"]}
{"id": "C41", "title": "Derived decode fails precisely on missing or ill-typed members", "statement": "Derived from_json on a non-object is a ConvertError; on an object it reports the first field (in declaration order) whose key is missing (MissingKey, also for Option fields) or whose value does not decode (that error); extra members are ignored and the last duplicate is used.", "quantifier": "all structs and all Json values", "why_tests_cant": "all struct shapes and documents", "anchors": ["json_derive/src/lib.rs: json_decode"]}
{"id": "C42", "title": "The derived member name is the attribute's string", "statement": "The member name used for a field with #[key = lit] is the string the Rust literal lit denotes. KNOWN FALSE for ordinary literals ending in an escaped quote (generated code does not compile), for raw strings containing a quote or backslash (wrong name or no compilation), for raw strings with three or more hashes (macro fails) and for r\"r\", r#\"r#\"#, r##\"r##\"## (wrong name), all proved; proved true for all other literals.", "quantifier": "all string literals", "why_tests_cant": "all literals", "anchors": ["json_derive/parse/src/meta.rs: Lit::parse, fix_string!", "json_derive/src/lib.rs"]}
{"id": "C43", "title": "Token splitting respects angle brackets and loses nothing", "statement": "split_tokens_by(ts, sep) cuts exactly at the separators outside <...> (with -> not counted as a bracket); re-joining the pieces with the separator gives back the input up to one trailing separator; no piece contains a top-level separator.", "quantifier": "all token streams, one- and two-character separators", "why_tests_cant": "all token streams", "anchors": ["json_derive/parse/src/utils.rs: split_tokens_by", "json_derive/quote/src/lib.rs: split_tokens_by"]}
{"id": "C44", "title": "Attribute parsing consumes exactly the attributes", "statement": "Parsing a field's leading #[...] attributes yields one item per attribute in order and consumes exactly those tokens, so visibility, name and type are read from the right place.", "quantifier": "all field token streams", "why_tests_cant": "all attribute lists", "anchors": ["json_derive/parse/src/meta.rs: Meta::parse, __token_num", "json_derive/parse/src/field.rs: StructFieldItem::parse"]}
{"id": "C45", "title": "object!/array! macros", "statement": "object!{k=>v,...} is the object whose members are the given pairs in order (duplicates kept); array![...] is the array of the encoded expressions in order.", "quantifier": "all argument lists", "why_tests_cant": "all argument lists", "anchors": ["src/lib.rs: object!, array!, append"]}
{"id": "C46", "title": "Number literals are read as the nearest f64", "statement": "A number literal accepted by the grammar is read as the IEEE-754 double nearest to its exact decimal value, ties to even, keeping the sign of zero; it is rejected with ParseNumberError exactly if that value overflows (magnitude at least 2^1024 - 2^970). parse never yields an infinity or NaN.", "quantifier": "all number literals of any length and exponent", "why_tests_cant": "unbounded literals; ties and the overflow threshold are single points", "anchors": ["src/lib.rs: Json::_parse_number"]}
{"id": "C47", "title": "f32 values keep their value", "statement": "Encoding an f32 gives the f64 with exactly the same value; every f32 (infinities and NaN included) survives encode/decode as a Json value, every finite one also as text.", "quantifier": "all f32 values", "why_tests_cant": "2^32 values, two formats and decimal text in between", "anchors": ["src/lib.rs: number_imp!(f32)"]}
{"id": "C48", "title": "Numbers are printed with the fewest digits", "statement": "The text printed for a finite f64 is the shortest decimal that parses back to it: no number literal read as the same f64 has fewer significant digits, and among those with equally many the printed one is nearest to the value. It is in positional notation (no exponent), without superfluous leading or trailing zeros. Integers of magnitude at most 2^53 are encoded in the usual decimal notation.", "quantifier": "all finite f64 values and all competing number literals; all integers up to 2^53 in magnitude", "why_tests_cant": "2^64 values, infinitely many competing literals", "anchors": ["src/lib.rs: impl ToString for Json (Json::Number)"]}
{"id": "C49", "title": "Error texts identify what went wrong", "statement": "The text of an error is its kind's name, ': ' and the message, so errors with different kind or message have different texts. The message of a failing get/del names the first path component that cannot be followed (missing key, index, or kind of the value found); a malformed path quotes the offending component; operations on the wrong kind of value name both kinds; a decoding error names the kinds of a sub-value that really does not fit, or a member name that is no key. str::parse::<Json> gives the same results and errors as Json::parse.", "quantifier": "all errors, documents, paths, types and operations", "why_tests_cant": "unboundedly many documents, paths and nested types", "anchors": ["src/lib.rs: impl Display for Error", "src/lib.rs: impl Display for ErrorKind", "src/lib.rs: Finder::find", "src/lib.rs: FromJson impls", "src/lib.rs: impl FromStr for Json"]}
{"id": "C50", "title": "Texts determine values", "statement": "A text is spelled by at most one RFC 8259 syntax tree, so the value a text denotes is unique. Two documents with finite numbers print to the same text iff they are the same value (up to hash order, numbers bit for bit); same text implies ==, while == documents can print differently only through the sign of zero (proved: 0 and -0).", "quantifier": "all pairs of RFC 8259 texts; all pairs of documents with finite numbers", "why_tests_cant": "ranges over all pairs of texts and of documents", "anchors": ["src/lib.rs: impl ToString for Json", "src/lib.rs: impl PartialEq for Json (derived)"]}
{"id": "C51", "title": "Non-finite numbers make the text invalid", "statement": "to_string returns RFC 8259 JSON iff every number in the document is finite: a NaN or infinity at any depth makes the text invalid JSON, and parse rejects the printed text then (a NaN or infinity on its own with InvalidJson or ParseNumberError).", "quantifier": "all documents", "why_tests_cant": "the non-finite number can be anywhere in a document of any shape", "anchors": ["src/lib.rs: impl ToString for Json (Json::Number)"]}
{"id": "C52", "title": "A quote! template means what its documentation says", "statement": "For every well-formed template of quote! (code, #var, #(expr), attributes, ##, conditions #(#e: ..)+ and #(#e: ..)-, options #(#e)? and #(#e:x ..)?, repetitions #(#e)* and #(#e:x ..)sep*, nested to any depth) and every scope, the emitted token stream is the documented one: values are inserted in place, a repetition emits its body once per element with the separator only between elements, an absent option or empty collection leaves nothing; the macro fails exactly if an expression that is reached fails or has the wrong type.", "quantifier": "all templates of any nesting, all scopes, all evaluators of the host expressions", "why_tests_cant": "templates nest to any depth and repeat over collections of any length", "anchors": ["json_derive/quote/src/lib.rs: quote!, __append_to_token!, __append_iter!"]}
{"id": "C53", "title": "quote! reproduces plain code token for token", "statement": "Code without # (and any code at all under @literal:) comes out as the compiler would tokenise it: no token lost, added or reordered at any depth, and operators of two and three characters stay joined.", "quantifier": "all token sequences without #", "why_tests_cant": "the rules of the macro are one per operator and group, and inputs nest to any depth", "anchors": ["json_derive/quote/src/lib.rs: __append_to_token!, __gen_punct!"]}
{"id": "C54", "title": "Identifier shortcut of quote!", "statement": "A printed value becomes a single identifier token, without consulting the compiler's lexer, exactly if its text is a non-empty ASCII identifier; the shortcut never changes a result.", "quantifier": "all strings and all lexers that read identifiers as identifiers", "why_tests_cant": "all strings", "anchors": ["json_derive/quote/src/lib.rs: __parse_to_token_stream, is_ident"]}
{"id": "C55", "title": "The derive macros emit exactly the expected implementations", "statement": "For every well-formed struct #[derive(JsonEncode)] emits exactly one ToJson implementation, for the struct's own name, generics and where clause, whose body inserts every non-ignored field once in declaration order under its key; #[derive(JsonDecode)] emits exactly one FromJson implementation that reads the same fields at their declared types and defaults the ignored ones. (The token stream itself, not only its meaning.)", "quantifier": "all well-formed struct definitions", "why_tests_cant": "structs have any number of fields, notes and generic parameters", "anchors": ["json_derive/src/lib.rs: derive_json_encode, derive_json_decode"]}
{"id": "C56", "title": "@params substitutes once and everywhere", "statement": "quote!(@params(x = e, ..): text) is the text with every #x at every depth replaced by the value of x; later expressions see earlier parameters; unknown #x vanish. In the result no # is directly followed by an identifier or parentheses: what a value brings in is substituted (and called) as well. A value that contains its own #x never terminates; ## next to a parameter is misread on the second pass (proved defect).", "quantifier": "all parameter lists and texts", "why_tests_cant": "texts nest to any depth; non-termination cannot be tested", "anchors": ["json_derive/quote/src/lib.rs: __translate, @params"]}
{"id": "C57", "title": "@scope runs its program", "statement": "A @scope program of definitions, undefinitions, conditions, loops and text blocks emits what running it statement by statement gives: definitions hold until replaced or undefined, exactly one branch is taken, loop bodies run once per element. #elif ignores the branches before it, so a true #if followed by #elif/#else emits two branches (proved defect); a macro call with the wrong number of arguments panics.", "quantifier": "all programs of any length, all evaluators", "why_tests_cant": "programs of any length and state", "anchors": ["json_derive/quote/src/lib.rs: __scope_command!, @scope"]}
{"id": "C58", "title": "Exactly which texts are accepted", "statement": "For every text: parse succeeds with value v iff, apart from whitespace around it, the text belongs to an explicit language with value v: RFC 8259 where containers are cut into pieces at commas, colons and closing brackets at which as many brackets of either kind (inside strings too) have been opened as closed and an even number of quotes was seen, whitespace at such places (and colons in member values) is dropped wherever it stands, and nothing is checked after `[]` and `{}`. All other texts are errors. No text has two values.", "quantifier": "all texts", "why_tests_cant": "infinitely many texts, valid or not", "anchors": ["src/lib.rs: Json::parse, parse_array, parse_object"]}
{"id": "C59", "title": "Accepted texts are documents with superfluous characters", "statement": "Whatever parse accepts can be turned into an RFC 8259 document with exactly the returned value by deleting characters only: parse never invents, reorders or reinterprets characters.", "quantifier": "all texts parse accepts", "why_tests_cant": "ranges over all malformed texts that slip through", "anchors": ["src/lib.rs: Json::parse"]}
{"id": "C60", "title": "json_parse reads every struct declaration", "statement": "Every well-formed struct declaration (unit, tuple or named, any attributes, visibility, generics, where clauses, trailing commas) is read as exactly that struct: name, parameters, fields in order with attributes, visibility and type, tuple fields numbered from 0. On every token stream, well-formed or not, the derive macros see a struct with named fields exactly when the item parser does, and the same one.", "quantifier": "all declarations of a grammar of Rust structs; all token streams for the second part", "why_tests_cant": "declarations of any size and nesting", "anchors": ["json_derive/parse/src/lib.rs: StructItem::parse, Item::parse", "json_derive/parse/src/field.rs: Fields::parse", "json_derive/parse/src/meta.rs: Meta::parse"]}
{"id": "C61", "title": "json_parse reads every enum declaration", "statement": "Every well-formed enum declaration is read as exactly that enum: the variants in order, each with attributes, name, fields and discriminant (negative ones if the compiler prints `-1` without a space).", "quantifier": "all enum declarations of the grammar, all printers with the stated laws", "why_tests_cant": "any number and shape of variants", "anchors": ["json_derive/parse/src/lib.rs: EnumItem::parse", "json_derive/parse/src/enum_value.rs"]}
{"id": "C62", "title": "json_parse reads every function declaration", "statement": "Every well-formed function declaration with at least one parameter is read as exactly that function: qualifiers, ABI, name, generic parameters, parameters in order, result type (whose tokens are counted exactly), where clauses, body.", "quantifier": "all function declarations of the grammar, all printers with the stated laws", "why_tests_cant": "types of any nesting must be counted to the token", "anchors": ["json_derive/parse/src/lib.rs: FnItem::parse", "json_derive/parse/src/param.rs", "json_derive/parse/src/name.rs: __token_num"]}
{"id": "C63", "title": "to_string of an item is a fixed point", "statement": "A parsed item is written back as an explicit canonical declaration, and parsing and writing that again changes nothing.", "quantifier": "all well-formed structs, enums, functions", "why_tests_cant": "round trip for all declarations", "anchors": ["json_derive/parse/src/lib.rs: StructItem::to_string, EnumItem::to_string, FnItem::to_string"]}
{"id": "C64", "title": "Attribute accessors", "statement": "idents() and literals() list the words and literals in order; get(n) is the n-th of both; get(\"key\") is the first pair with that key; get((\"name\", ..)) looks in the first list with that name; pairs()[key] and groups()[name] are the LAST with that key.", "quantifier": "all attribute lists", "why_tests_cant": "lists of any length with any duplicates", "anchors": ["json_derive/parse/src/meta.rs: Meta::get, idents, literals, pairs, groups"]}
{"id": "C65", "title": "What json_parse refuses or loses", "statement": "Refused: empty bodies (struct S {}, struct S();, enum E {}, fn f()), parameters whose type has `::` outside angle brackets, any declaration with an unreadable attribute (path, empty list, character, suffixed integer beyond 31 bits), public tuple fields of tuple type, discriminants that are not plain decimal numbers below 2^63. Misread or lost: `mut x: T` has the name mut; unsuffixed integers beyond 31 bits become floats; written back, negative numbers lose the sign, unit structs the where clause, `extern fn` the extern, attribute lists their delimiters.", "quantifier": "all declarations with one of these features", "why_tests_cant": "each holds for infinitely many declarations", "anchors": ["json_derive/parse/src/field.rs", "json_derive/parse/src/param.rs: ParamItem::parse", "json_derive/parse/src/meta.rs: Lit::parse, MetaItem::parse"]}
{"id": "C66", "title": "Exactly which error every refused text gives", "statement": "For every text: parse returns an error with a given kind and message iff the text, without the whitespace around it, is refused with that kind and message by an explicit list of rules (wrong start, incomplete literal, malformed / non-numeric / too large number, each defect of a string literal after its longest good part, unclosed containers, empty elements and members, trailing commas, bad keys, errors of elements and values passed on unchanged, trailing characters), the first defect winning. Every text is accepted or refused, never both, and has one error only.", "quantifier": "all texts, all errors", "why_tests_cant": "infinitely many malformed texts; which of several defects is reported depends on the whole text", "anchors": ["src/lib.rs: Json::parse, parse_null, parse_boolean, parse_number, parse_string, parse_array, parse_object, parse_hex_digit, valid_number"]}
{"id": "C67", "title": "The bracket counters of parse do not overflow", "statement": "parse counts brackets and quotes in i32. On every text of fewer than 2^31 characters no counter overflows: debug build (overflow panics) and release build (overflow wraps) end without a panic with the same result, the one over unbounded integers. Beyond it a debug build panics: on every text of more than 2^31 opening brackets.", "quantifier": "all texts below 2^31 characters, all overflow behaviours; all counts of brackets above 2^31", "why_tests_cant": "texts of any shape; the boundary is too large to test", "anchors": ["src/lib.rs: Json::parse_array, Json::parse_object (variables i, j)"]}
{"id": "C68", "title": "parse takes quadratic time at most", "statement": "On every text of n characters, accepted or refused, parse takes at most (n+1)^2 steps (loop rounds, characters read by the leaf parsers, calls). The square is needed: null in k arrays (2k+4 characters) takes k^2+5k+6 steps.", "quantifier": "all texts; all k below 2^31", "why_tests_cant": "a complexity bound ranges over all texts of all lengths", "anchors": ["src/lib.rs: Json::_parse, parse_array, parse_object (each level copies its elements and scans them again)"]}
{"id": "C69", "title": "Recursion depth of parse", "statement": "The calls of parse nest at most one deeper than the number of opening brackets in the text (so a text without brackets needs one call), and null in k arrays is accepted with depth k+1: there is no depth limit, the stack needed is unbounded.", "quantifier": "all texts; all k below 2^31", "why_tests_cant": "ranges over all texts", "anchors": ["src/lib.rs: Json::_parse, parse_array, parse_object"]}
{"id": "C70", "title": "Histories of API calls", "statement": "For every document and every sequence of calls on it (get, set, del with path texts; find, update, discard with paths; insert, append, delete, index_and_merge, push, replace, remove, reading and assigning, on the document, through find_mut, or through index operators), up to a possible panic: every value, every full error (kind and message) and every panic the caller sees, and the final document, are those of a specification on abstract values, which is deterministic. Hence the iteration order of the hash maps cannot be observed by any history of calls.", "quantifier": "all well-formed documents, all finite sequences of calls with all arguments, all hash orders", "why_tests_cant": "ranges over all histories of calls and all hash orders", "anchors": ["src/lib.rs: Json::{insert,append,delete,index_and_merge,push,replace,remove,get,set,del,find,find_mut,update,discard}, Index, IndexMut, Path, Finder"]}
{"id": "C71", "title": "Laws of get, set and del", "statement": "set at or below a place and then at the place is the second set alone. set at a place and then below it is one set of the value changed there. set at two places that part commutes (also as to whether it panics). set to the value that get returned changes nothing if the key has one value. del after set over something is del; del after set of a new key or next element returns the value and restores the document. set and del, del and del at independent places commute, with the same values returned; after deleting element i of an array, what was element n > i is at n-1.", "quantifier": "all documents, values and path texts meeting the stated relation", "why_tests_cant": "algebraic laws over all documents and paths", "anchors": ["src/lib.rs: Json::{get,set,del}, Path::{find,update,discard}, Finder::{find,update,discard}"]}
{"id": "C72", "title": "Histories of the functions on texts", "statement": "For every accepted text and every sequence of json::get::<Json>, json::set and json::del on it, each applied to the text the previous one returned (the old text if it failed), with strings and keys of balanced brackets and finite numbers: what the caller sees of every call is what the same call on the parsed document shows; the final text means the final document and, if the first text was a printed document, is its printed form.", "quantifier": "all such texts, all finite sequences of calls", "why_tests_cant": "ranges over all histories; printing and reparsing between calls must leave no trace", "anchors": ["src/lib.rs: get, set, del, Json::parse, Json::to_string"]}
{"id": "C73", "title": "quote!: the whole language of @scope, macros with arguments included", "statement": "A @scope program of definitions, macros with arguments, #include, #quote, #execute (of statements that assign to no variable of the caller), #undef, conditions with any chain of #elif and #else, loops with or without a variable (also inside branches), text blocks and a final #end emits exactly the tokens that running it statement by statement gives. #x stands for the value in force or nothing; #(f(a, ..)) for the body of f expanded with the parameters standing for the expanded arguments, in the definitions in force at the call; a call of an unknown macro and any other #(..) for nothing. Arguments are separated by the commas outside of groups and angle brackets (-> closes none), a trailing comma is ignored, a macro without parameters takes one argument. #undef and #ifdef see values only, never macros. #elif looks at its own condition only, #else negates the last one. If the program has no run (wrong number of arguments, a failing expression, a macro that calls itself for ever) the macro has no result. Conditions: every # of a text or macro body is followed by something other than # and ','; no # of a value applies to what follows it.", "quantifier": "all such programs, all values of the Rust variables, all token streams as arguments, all depths of nested calls", "why_tests_cant": "ranges over all programs and all nestings of macro calls", "anchors": ["json_derive/quote/src/lib.rs: __scope_command!, __translate, split_tokens_by"]}
{"id": "C74", "title": "quote!: commands of @scope out of place", "statement": "quote!(@scope: ..) gives a result only if the scope consists of text blocks and known commands, among them a text block, and each stands where it may: nothing after #end; #elif, #else and #endif only after an #if, #ifdef or #ifndef with no #endif in between (so conditions do not nest); #endfor only after a #foreach with nothing but text in between; between #foreach and its #endfor only text or #end. And nothing else is required of the order: a scope of texts without # and commands with proper parameters gives a result if and only if these hold (an #if or #foreach need not be closed).", "quantifier": "all token sequences of a scope, all variables, all nesting bounds", "why_tests_cant": "ranges over all sequences of commands", "anchors": ["json_derive/quote/src/lib.rs: __scope_command!, __append_to_token!"]}
{"id": "C75", "title": "quote!: @options(..) and @span(..)", "statement": "quote!(@options(o1, .., on): text) is the same as the form of quote! selected by the last of literal, params(..) and scope among the options (@literal:, @params(..):, @scope:), whatever the others are; span(e) options change nothing in the tokens. If there are only spans the text is an ordinary template, as with @span(e): text, even when it begins with @. An unknown option, literal(..), scope(..), span or params without parentheses, and a span that is no expression do not compile.", "quantifier": "all non-empty lists of options, all texts, all values of the Rust variables", "why_tests_cant": "ranges over all lists of options in any order and all texts", "anchors": ["json_derive/quote/src/lib.rs: quote!, __parse_options!"]}
{"id": "C76", "title": "Printed texts are short", "statement": "Every finite f64 is printed with at most 17 significant digits, every number in at most 327 characters (reached by -5e-324); a string in at most 12 characters for each of its own plus two quotes. Whatever text parse accepts, the value is printed with at most 62 times as many characters as the text had, with duplicate members and anything else (61 times would not do: 1e308).", "quantifier": "all f64, all strings, all texts of any length and nesting", "why_tests_cant": "2^64 numbers and unboundedly many texts; the worst cases are rare", "anchors": ["src/lib.rs: impl ToString for Json, escape, hex, Json::parse, object_insert"]}
{"id": "C77", "title": "Derived types nest and recurse", "statement": "In a program whose derived structs contain one another, directly or through Vec, Option, Vec<(K, V)> and HashMap, and themselves: to_json and from_json of a value (document) always end; from_json of to_json of a value gives it back to any depth, also through to_string and parse, up to the order of hash maps and with ignored fields at their defaults, and exactly if there are neither; from any document from_json reads exactly the value its parts describe, or fails with the error of the first part, in order, that cannot be read.", "quantifier": "all programs (any number of structs, any field types, any Defaults), all values and all documents of any size and depth", "why_tests_cant": "unboundedly many mutually recursive type declarations, values and documents", "anchors": ["json_derive/src/lib.rs: ToJson, FromJson derives", "src/lib.rs: impls of ToJson and FromJson"]}
{"id": "C78", "title": "Numbers with up to 15 significant digits survive parse and to_string", "statement": "A number literal with at most 15 significant digits (none after the 323rd decimal place; in particular any literal of at most 15 digits from 2^-1022 upwards, and zero) that is in the range of f64 is read by parse, and the text to_string then prints denotes exactly the same rational number; two such literals are read as the same number only if they denote the same number; a whole document with such numbers is printed as a document with exactly the same value. 16 digits or a digit in the 324th place do not survive in general.", "quantifier": "all number literals and all documents", "why_tests_cant": "about 10^15 significands times 600 exponents, and all documents", "anchors": ["src/lib.rs: Json::parse, Json::_parse_number, Json::to_string", "std: f64::from_str, f64::to_string"]}
{"id": "C79", "title": "Numbers keep their order", "statement": "If one number literal denotes at most what another one denotes, the numbers parse reads from them are ordered the same way, and so are the integers decoded from them; numbers that differ are printed as literals that differ in the same direction; encoding integers keeps their order across all integer types.", "quantifier": "all pairs of number literals, finite numbers and integers", "why_tests_cant": "it ranges over all pairs of an infinite set", "anchors": ["src/lib.rs: Json::_parse_number, Json::to_string, impls of ToJson and FromJson for the integer types, decode"]}
{"id": "C80", "title": "to_string after parse is a normal form", "statement": "Parsing a text and printing the result gives a normal form: it is accepted again exactly if the strings inside containers have balanced brackets, and then printing it again changes nothing; two accepted texts have the same normal form exactly if they have the same value, i.e. for JSON documents exactly if they denote the same value.", "quantifier": "all texts and all pairs of texts", "why_tests_cant": "infinitely many texts denote each value", "anchors": ["src/lib.rs: Json::parse, Json::to_string"]}
{"id": "C81", "title": "Derived decoders read what other structs wrote", "statement": "A derived decoder looks only at the newest values of the members named by its non-ignored fields: other members, their order and older duplicates play no role. What one struct has encoded another one decodes, as value and through text, if each of its non-ignored fields has a field with the same member name and a compatible type there, regardless of order, further fields and the names of structs and fields. A field whose member is not written is a MissingKey error whatever its type, also for Option.", "quantifier": "all pairs of struct declarations of the supported forms, all values and all documents", "why_tests_cant": "it ranges over all pairs of struct definitions and all objects", "anchors": ["json_derive/src/lib.rs: ToJson, FromJson derives (json_encode, json_decode)", "src/lib.rs: add_option"]}
{"id": "C82", "title": "Decoding does not depend on hash order", "statement": "Decoding a document at any type, built-in or derived, does not depend on the order in which its hash maps are iterated, nor on the order in which members of different names stand in the text: whether it succeeds never does; what it gives does not if no two member names stand for the same key (String keys always); and for types without HashMap, Vec<(K,V)> and Json inside also the error is the same. Exceptions, proved to occur: {\"1\":..,\"+1\":..} read with integer keys gives one value or the other depending on the run of the program, and of several unreadable members it depends on the run which one is reported.", "quantifier": "all types, all pairs of documents with the same content, all pairs of texts with the same value", "why_tests_cant": "Rust's hash order is different in every run; a test sees one order", "anchors": ["src/lib.rs: FromJson for HashMap, Vec<(K,V)>, Vec, Option", "json_derive/src/lib.rs: json_decode"]}
{"id": "C83", "title": "Texts show where they end", "statement": "After a complete text of a string, null, true, false or a non-empty array or object, any further character but whitespace is an error that names it; and such a text cut off anywhere before its last character is refused with the error for a text that stops too early. So at most one prefix of a stream can be read as such a value, two documents written one after the other are never read as one, and a value written by to_string and stored only in part is never read back as something, wherever it was cut. Exceptions, proved to occur: a number may be the beginning of a longer number only (a torn 12.5 may be read as 1), and after [] and {} anything is ignored; no other text gives the empty array or object.", "quantifier": "all texts, all cuts, all continuations, all values", "why_tests_cant": "it ranges over all texts and all places where a write or a read can be cut off", "anchors": ["src/lib.rs: Json::parse, parse_null, parse_boolean, parse_string, parse_array, parse_object, Display for Json"]}
{"id": "C84", "title": "to_string: time and recursion depth", "statement": "to_string takes at most 5\u00b7d\u00b7n steps (calls and characters written, every copy counted; sorting not counted), where n is the length of its result and d the depth of its calls; d is exactly one more than the number of arrays and objects around the deepest value inside. So printing is linear for bounded nesting. The factor d is needed and there is no depth limit: null in k arrays (2k+4 characters) takes 2k\u00b2+9k+5 steps and k+1 nested calls.", "quantifier": "all values, all k", "why_tests_cant": "a complexity bound ranges over all values", "anchors": ["src/lib.rs: ToString for Json, escape"]}
{"id": "C85", "title": "What has been read stays", "statement": "Whatever value T::from_json (decode) gave for a document, writing that value with to_json (encode) and reading it back gives the same value (up to the order of hash maps; the very value if the type has no hash maps, Vec<(K, V)> and Json), and writing that again gives the identical text - with no condition on the value: integers above 2^53, saturated integers, nested Options and ignored fields included. It holds for the built-in types and for every type of a program with derived structs. Through text it needs strings with balanced brackets (C01) and finite floats; floats read from text are finite unless the type has an f32 in it (1e300 is read as an infinite f32, which is then written as no JSON). An integer that was not read but made by the program need not survive once (2^53 + 1), but the bounds of every integer type do.", "quantifier": "all documents and texts, all values read from them, all built-in types and all programs with derived structs", "why_tests_cant": "it ranges over all documents, all types and all 64-bit floats (casts with rounding and saturation)", "anchors": ["src/lib.rs: decode, encode, ToJson/FromJson implementations, number_imp!", "json_derive/src/lib.rs: derive_to_json, derive_from_json"]}
{"id": "C86", "title": "Compatible changes of types", "statement": "What a program has written as a value of one type, a later version reads at another type, if the types are compatible: fields are matched by member name (field names, order and left-out fields play no role), integers may get a larger type or become f64, f32 may become f64, a required value may become an Option, a HashMap may become a Vec<(K, V)> and the other way round, a struct may be read as a HashMap or a Vec<(K, V)>, anything as Json - all at any depth, through containers and mutually recursive derived structs. What is read is exactly what the new type can see of the old value (for a Vec<(K, V)> as a HashMap the last pair of each key; ignored fields at their defaults). The limits: a new non-ignored field is always an error, even if it is an Option (MissingKey, if the fields before it are compatible), and None is never read at a type that is not optional.", "quantifier": "all programs, all pairs of compatible types, all values, all documents with the content written", "why_tests_cant": "it ranges over all programs and types and nesting depths", "anchors": ["src/lib.rs: ToJson/FromJson implementations, number_imp!", "json_derive/src/lib.rs: derive_to_json, derive_from_json"]}
{"id": "C87", "title": "What parsing costs, level by level", "statement": "parse takes at most two steps for each character of the text (and one more) and each level its calls nest, whether it accepts or refuses the text (a step: a round of a loop, a character looked at by a leaf parser, a call); so flat documents are read in linear time and the quadratic cost of C68 is due to nesting alone. On an accepted text its calls nest exactly one deeper than the deepest value stands in the result, keys and whitespace included. Reading back what to_string has written nests exactly as deep as writing it did. The bound is reached, up to a constant factor, at every depth.", "quantifier": "all texts, accepted or not; debug and release builds; all printable values", "why_tests_cant": "a cost bound for every text cannot be measured on samples", "anchors": ["src/lib.rs: Json::parse, _parse, parse_array, parse_object, parse_string, parse_number", "src/lib.rs: Json::to_string"]}
{"id": "C88", "title": "Upgrades in steps", "statement": "A value that a program has written may be read and written again by any number of later versions on the way; what the last version reads is what it reads directly from the original document (up to the order of hash maps and the interleaving of different keys in a Vec<(K, V)>), and no version on the way meets an error. A later version of a later version is a later version, so versions can be skipped. The changes allowed in each step are those of C86 (fields renamed behind their member name, reordered or left out; larger number types; values made optional; at any depth, through mutually recursive structs) except those that change the kind of a container. With those it is false: a Vec<(K, V)> that passes through a HashMap<K, V> loses all but the last pair of each key, which a direct reading sees.", "quantifier": "all programs, all chains of versions of any length, all values, all documents with the content written", "why_tests_cant": "it ranges over all programs, all values and chains of versions of any length", "anchors": ["src/lib.rs: ToJson/FromJson implementations", "json_derive/src/lib.rs: derive_to_json, derive_from_json"]}
{"id": "C89", "title": "Documents grow only by what is put in", "statement": "A text of n characters is never read as more than (n + 1) / 2 values. push and append add exactly the values of what they put in; del takes out at least the values of what it returns; set adds fewer values than those of the new value and those built on the way to it (one object for each key, one array and i nulls for each index i), and exactly that many on null: a path of a few characters can make a document of any size, but nothing else can. Over any history of calls up to a panic a document never has more values than at the start and than the calls put in, together, and never nests deeper than at the start and than the calls put values.", "quantifier": "all texts, all documents, all path texts and path values, all histories of calls of any length", "why_tests_cant": "it bounds the size and depth of documents over histories of any length, and over all texts", "anchors": ["src/lib.rs: Json::parse, get, set, del, push, append, insert, replace, remove, find_mut, update, discard", "src/lib.rs: Index/IndexMut for Json"]}
{"id": "C90", "title": "Numbers in attributes", "statement": "A number literal of Rust (decimal, in another base, with fraction, exponent, underscores, type suffix) as the value of an attribute, alone or in a list, with or without a minus sign: json_parse reads it exactly if it is decimal, has no underscores and, with an integer type, is below 2^31; every other one (0xff, 1_000, 3000000000u64) makes the attribute unreadable. Without fraction, exponent or float type and below 2^31 it is the integer it denotes; else it is the f64 nearest to what it denotes, ties to even, infinite beyond the range, whatever float type is written (0.1f32 too). A minus sign negates it.", "quantifier": "all number literals of the Rust reference, both signs, all attributes", "why_tests_cant": "infinitely many literals; nearest rounding cannot be settled by samples", "anchors": ["json_derive/parse/src/meta.rs: Lit::parse, fix_suffix!, MetaItem::parse"]}
{"id": "C91", "title": "Misspelt words", "statement": "In a document that is RFC 8259 JSON except that arbitrary words (runs of characters other than whitespace, quotes, brackets, commas, colons and backslashes) stand where numbers may: parse succeeds with a value v exactly if every word is null, true, false or a number in range (C12's notation), the document then denotes v, and it has none of the features of C08. So one misspelt word anywhere, at any depth (tru, nul, True, NaN, undefined, +1, .5, 0x10, 'x', 1_000), makes parse return an error.", "quantifier": "all documents of any shape and depth, all words at any positions", "why_tests_cant": "words and positions are unbounded; the array and object loops find the ends of words by bracket counting, far from where words are read", "anchors": ["src/lib.rs: Json::parse, _parse, parse_array, parse_object, parse_null, parse_true, parse_false, parse_number, valid_number"]}
{"id": "C92", "title": "Modifiers inside templates of quote!", "statement": "In a template of quote! with #(@literal: ..), #(@params(..): ..) and #(@scope: ..) at any depth, in groups, attributes, conditionals, option and loop bodies: each modifier yields what quote!(@..) gives for it alone with the variables visible there; a variable declared by a @params is visible to what follows in the same group and not outside it; the rest means what it does without modifiers. If a modifier fails, so does the whole template. A modifier without text, without parameters, or of another name does not compile.", "quantifier": "all templates, scopes, expression values and nesting depths", "why_tests_cant": "templates nest without bound; that a variable leaks no further than its group must hold for all of them", "anchors": ["json_derive/quote/src/lib.rs: quote!, _quote! @literal/@params/@scope rules"]}
{"id": "C93", "title": "A JSON text as a store", "statement": "Places in a document whose paths end in a key and part pairwise (different keys of one object, or different indices of one array): any sequence of json::get, json::set and json::del at them, each on the text the previous one returned, panics nowhere and answers as a plain map from places to values does - set stores, del removes or fails if there is nothing, get shows the value or fails - and the text in the end has the contents of that map, whatever else is in the document. json::get::<T> then gives the value last stored at the place, for built-in types and for types with derived structs.", "quantifier": "all accepted texts with balanced brackets in strings, all families of such places (also infinite), all finite sequences of calls, all types and values", "why_tests_cant": "unbounded histories; that a call never affects another place, even one where nothing is, must hold for all documents and paths", "anchors": ["src/lib.rs: get, set, del, Json::get, Json::set, Json::del, Finder::update, Finder::discard"]}
{"id": "C94", "title": "Documents kept as strings inside documents", "statement": "The text printed for a document whose strings and keys have balanced brackets has balanced brackets itself, so it may be stored as a string value in another document: after printing and parsing the outer document json::get returns exactly that text at the same path, and parsing it gives the inner document back. This holds for any depth of such wrapping.", "quantifier": "every finite document with balanced strings, every outer document and path, every list of balanced wrapping keys (any nesting depth)", "why_tests_cant": "the escaping of escaped text and the bracket counting of the parser's scanner interact at every depth of wrapping; tests fix one depth and a few texts", "anchors": ["src/lib.rs: Json::parse, impl Display for Json, escape", "src/lib.rs: get"]}
{"id": "C95", "title": "A log of JSON texts survives crashes", "statement": "If printed documents are appended to a file one per line and only a prefix of the file survives a crash, parsing line by line up to the first refused line gives exactly the documents that are whole in the prefix, none lost and none made up from a part (bare numbers excepted; with the unfinished line cut off first, for all documents). After any number of runs of a writer that cuts off the unfinished line and appends, each crashing anywhere, exactly the documents whose newline reached the file are read, in order.", "quantifier": "every list of printable documents, every crash point (number of characters stored), every sequence of writer runs with their crash points", "why_tests_cant": "every prefix of every text must be refused, at every crash point of every history of runs", "anchors": ["src/lib.rs: Json::parse, impl Display for Json, escape"]}
{"id": "C96", "title": "#execute statements that assign", "statement": "In quote!(@scope: ..) a statement run by #execute may assign to variables of the caller: all later conditions, loops, definitions, included and quoted streams of the scope, and the caller after the macro, see the new values; a statement in a branch that is not taken assigns nothing; if a statement fails there is no result. The macro emits a stream and leaves the variables in a state exactly if the program, run statement by statement, does so; with statements that assign nothing it is the macro without assignments.", "quantifier": "every program of the scope language, every meaning of the statements (any partial function on the variables), every evaluator of expressions and every initial state", "why_tests_cant": "the order of effects across branches, loops and macros must be right for every program and every statement", "anchors": ["json_derive/quote/src/lib.rs: __scope_command!, __append_to_token! (@scope)"]}
{"id": "C97", "title": "get, set and del: time and recursion depth", "statement": "On a path of n characters with d dots, get and del take at most 2n + d(d+3)/2 + 2 steps and nest at most d+1 calls deep, set at most 2n + d(d+5)/2 + 3 steps plus one for each element the indices of the path ask for, and at most d+2 calls deep, whatever the document is and whether they succeed or fail. On a path of m components the calls nest exactly m deep if the place exists (set: m+1), at least m-1 deep on every document, with at least m(m-1)/2 steps: the path is built by recursion, so a text of k dots makes get nest k calls deep even on null. On null set takes at least one step for every element the indices of the path ask for, so a text of n characters can take 10^(n-1) steps.", "quantifier": "every path text, every document and value, success and failure alike", "why_tests_cant": "a test measures one path; the bounds must hold for all lengths, and the absence of a limit is a statement about all depths", "anchors": ["src/lib.rs: Path::append, Path::find, Path::discard, Path::update, Finder::update, parse_path, Json::get, Json::set, Json::del"]}
{"id": "C98", "title": "A document can be rebuilt from its leaves with set", "statement": "Take a document without duplicate keys and list its leaves (scalars, empty arrays and empty objects) with their paths. Calling set with them on null (or on anything that has nothing inside), in any order and with repetitions, succeeds every time and ends with the same document, which prints as the same text. More generally any sequence of set calls that puts parts of the document where they are in it rebuilds it, provided every leaf is at or below one of the places. So every document that is not a scalar can be reached from every other by calls of set and del. Two documents without duplicate keys and with the same leaves are the same.", "quantifier": "every document without duplicate keys (paths writable, array lengths within the limit of Vec), every order and multiplicity of the calls, every starting leaf", "why_tests_cant": "there are factorially many orders and infinitely many documents; arrays are filled with null and intermediate containers are created and replaced on the way, differently for each order", "anchors": ["src/lib.rs: Json::set, Path::update, Finder::update, parse_path, impl Display for Json"]}
{"id": "C99", "title": "A change of one place changes one stretch of the text", "statement": "The text of a document contains, as one stretch, the text of the value at any place. set at a place that is there replaces exactly this stretch by the text of the new value and leaves every other character as it is. Setting a new key, or the next element of an array, puts one stretch into the text - the value after its key, with one comma before or after it unless the container was empty - at a position that does not depend on the value; del takes such a stretch out. json::set and json::del do the same to any text in the form that to_string writes. (Keys given twice lose their older values and are excluded.)", "quantifier": "every well-formed document, every path (existing or new), every value, every text in printed form", "why_tests_cant": "it says that nothing else moves, for all documents, depths and positions in the sorted member list", "anchors": ["src/lib.rs: impl Display for Json (to_string), Json::get, Json::set, Json::del, set, del"]}
{"id": "C100", "title": "A document laid over another, leaf by leaf, is a deep merge", "statement": "Calling set with every leaf of a document (a scalar or an empty container, at its path) on another document lays the first over the second: whatever the order of the calls and however often each is made, all of them return and the result is the deep merge - objects are merged member by member, arrays element by element (filled up with null), leaves take the place of what was there. So every leaf of the overlay is found afterwards, everything whose path parts from all leaf paths stays as it was, laying over again changes nothing, overlays at places that part can be exchanged, and a document laid over itself or over null is itself.", "quantifier": "every well-formed overlay with something inside (arrays shorter than the limit, keys that paths can express), every base document, every order and repetition of the calls", "why_tests_cant": "it ranges over all pairs of documents and all orders of the calls", "anchors": ["src/lib.rs: Json::set, Json::get, Path::update, Finder::update, impl Display for Json (to_string)"]}
{"id": "C101", "title": "Documents that compare equal behave alike", "statement": "No document call looks at a number. If two documents differ in their numbers only (by any relation R), and so do the values passed to the calls, then through any history of get, set, del, find_mut, indexing and value methods the same happens call by call: the same error with the same message, a panic in both cases, or values that differ in numbers only, by R; and the documents in the end differ in numbers only. In particular == is a congruence: equal documents (0 and -0, or different hash orders) stay equal under the same calls with equal arguments, give equal values and the same errors, and are read alike at every type without f32 and maps.", "quantifier": "all relations on numbers, all pairs of related well-formed documents, all histories of calls of any length with related arguments, all texts as paths, all types of the fragment", "why_tests_cant": "it ranges over all pairs of documents and all histories", "anchors": ["src/lib.rs: impl PartialEq for Json (derive), Json::get, Json::set, Json::del, Json::insert, Json::append, Json::push, Json::replace, Json::remove, Path::find_mut, Index, IndexMut, JsonCodec::decode"]}
{"id": "C102", "title": "Clients that work below different members do not disturb one another", "statement": "Several clients work on one object at some place of a document, each with calls below its own member (get, set, del by text or path value, find_mut and indexing with any method of the value found, and the object's own methods that name the member). What a call returns and what becomes of its member depend on that member only; the other members and everything outside the object stay. So whatever way the clients take turns: if no call panics each client sees exactly what it would see alone, its member ends as if it were alone, and the rest of the document stays; and two schedules of the same work either both panic, or show every client the same and end in the same document, with the same text. And whatever a client did, setting its member to the value it had at first (or deleting it, if there was none) restores the whole document.", "quantifier": "every document with an object at the place, any number of clients, all sequences of calls of each, and all ways to interleave them", "why_tests_cant": "the number of schedules grows exponentially; the property is about all of them", "anchors": ["src/lib.rs: Json::get, Json::set, Json::del, Path::find, Path::find_mut, Path::update, Path::discard, Index, IndexMut, Json::insert, Json::append, Json::delete, Json::index_and_merge"]}
{"id": "C103", "title": "Path texts can be joined with a dot", "statement": "Two path texts joined with a dot are a path text that stands for the components of the one followed by those of the other, unless the first ends in a backslash (which escapes the dot: \"a\\\" and \"b\" give the key \"a.b\"). get with the joined path is get after get: the same value, or the same error, that of the first get if it fails. find_mut with it is find_mut after find_mut, and del and set with it are del and set on the value that find_mut finds for the first part, in place.", "quantifier": "all pairs of path texts, all documents and values", "why_tests_cant": "it ranges over all path texts, with any escapes, and all documents", "anchors": ["src/lib.rs: parse_path, Json::get, Json::set, Json::del, Path::find, Path::find_mut, Path::update, Path::discard"]}
{"id": "C104", "title": "A part of a document does in its place what it does alone, and parts do not disturb one another", "statement": "Take the value at some place of a document. Any history of calls on it (get, set, del, find_mut, indexing, methods), made through the whole document with the place's path in front, gives the same values, errors, messages and panics as on that value alone, and leaves the document as it was with the value's end in its place. So clients at several places that part (different keys of one object or different indices of one array, somewhere on the way, at any depths) can take turns in any way: if no call panics each sees what it would see alone and leaves at its place what it would leave alone, wherever else one looks nothing has changed, and two schedules of the same work either both panic or show every client the same and end in the same document, with the same text.", "quantifier": "all documents (duplicate keys included), all places, all numbers of clients, all histories and schedules of their calls", "why_tests_cant": "it ranges over all documents, histories and interleavings", "anchors": ["src/lib.rs: Json::get, Json::set, Json::del, Path::find, Path::find_mut, Path::update, Path::discard, Index, IndexMut, Json::insert, Json::append, Json::delete, Json::push, Json::replace, Json::remove"]}
