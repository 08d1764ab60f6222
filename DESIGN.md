# Formal model of Boyux/rust-json in Lean 4 — design

Everything is in `lean/Verif/`. Four layers, kept apart so that a statement can be read
without its proof:

| layer | directory | content |
|---|---|---|
| model | `Verif/Model/` | the Rust code, function by function; every definition cites `/repo` file and lines |
| specification | `Verif/Spec/` | what the properties talk about, written without reference to the model's helpers: RFC 8259 syntax trees, abstract JSON values, the abstract multimap, paths as lists … |
| lemmas | `Verif/Proof/` | invariants and inductions |
| properties | `Verif/Props/` | one file per group of properties: the theorems named in `MANIFEST.json`, each with concrete non-trivial examples |

## Modelling decisions

* **Text.** `&str`/`String` are `List Char`; a Rust `char` is a Lean `Char` (both are Unicode scalar values).
* **f64.** The parser/printer model is generic in the float type `F` with the operations the code calls
  (`FloatOps`: `str::parse::<f64>`, `is_finite`, `to_string`, `==`, `as`). Properties which need facts about floats use the class
  `LawfulFloat` (accepted grammar of `f64::from_str`, shape and round trip of `f64::to_string`). `LawfulFloat` is not an axiom: a concrete
  IEEE-754 binary64 model (bit-pattern magnitude, correctly rounded decimal parsing, shortest round-trip
  printing) is defined and **proved** to satisfy it, so all theorems hold of that model.
* **HashMap.** An association list whose order stands for the (arbitrary) iteration order; `NoDup` keys is the
  representation invariant. Properties are stated for every order and results are compared up to order.
* **Mutation.** `&mut self` operations return the new document together with the outcome, so "leaves the document unchanged
  on error" is a statement. `&mut Json` results are a value plus a write-back function (a lens).
* **Panics** (`Vec::remove`, `Index`, capacity overflow in `set`) are an explicit outcome `panic`.
* **Recursion.** `Json::_parse` is fuelled. Termination is the theorem that with fuel greater than the text length the
  result does not depend on what is returned when the fuel is exhausted; after it `_parse` satisfies exactly the recursive equation of the code.

## Trusted base

* Lean 4.33.0 kernel. Axioms used: at most `propext`, `Classical.choice`, `Quot.sound` (checked by `vcheck`; no axioms of our own, no `native_decide`).
* The transcription of the Rust source into `Verif/Model/` (checked by reading; each definition cites its lines).
* The model of the Rust standard library pieces used: `HashMap`, `Vec`, `LinkedList`, `str::chars`, `trim_matches`, `sort_by`, `str::cmp` (UTF-8 byte order),
  `str::from_utf8`, `usize::from_str`, `f64::from_str`, `f64::to_string`, `as` casts.

### Not modelled

* Stack and heap sizes: recursion depth of `Drop` (those of `parse` and `to_string` are counted in C69 and C84, their overflow is not), allocation failure (except the index passed to `set`, see C21).
  Arithmetic overflow of the scanner's counters is modelled in `Model/Run` only (C67); all other theorems are about the parser over unbounded integers, i.e. texts below 2^31 characters.
* Of `json_parse`: error messages, spans, `Extend`/`IntoIterator`-style conveniences.
* `proc_macro` itself: the derive macros are modelled on token lists (what `TokenStream` iteration gives), the Rust compiler's own parsing and name resolution of the generated code is not.
* Of `quote!`: spans (the expression of `@span` only has to compile), assignments of `#execute` statements in scopes nested inside `#define(..)`/`#quote(..)` and side effects of expressions, rustc's recursion limit, and the host expressions (an arbitrary evaluator).
* Hashing (`RandomState`): any iteration order is allowed.

## Per-property plan

C01 round trip: scanner lemma (`scan`: a text whose strings are bracket-balanced is pushed through the container loops unchanged) + completeness (C08) applied to the
  concrete syntax tree that `to_string` prints (C02); the exact characterisation uses the soundness lemma of C09.
C02 `to_string j = text (cstOf j)`, induction over values; the tree is `Valid` and denotes `j`.
C03 by induction over values; `escape` outputs only printable ASCII (case analysis on the code point), float text by `LawfulFloat`.
C04 sorting a permutation of a list with distinct keys gives the same list; induction over values.
C05 C06 `parse_string` against an RFC literal grammar (list of items: plain char, simple escape, `\uXXXX`), induction over the text; `parse_string ∘ escape`.
C07 `encode_utf8` against a UTF-8 decoder, case analysis with arithmetic (all code points, no enumeration). `C07_from_utf8`: that decoder (our stand-in for `str::from_utf8`) is the inverse of the UTF-8 encoder of Lean's library, and refuses everything else.
C08 completeness: induction over syntax trees. C09: induction over syntax trees with "degraded prefixes" (whitespace/colons dropped by a miscounting scanner).
C10 trim lemmas. C11, C12: direct + automaton lemma for `valid_number` and the float grammar. C13: induction on fuel. C14: strong induction on length.
C15 counterexamples by evaluation; rejection classes from decomposition lemmas of the two scanner loops.
C16 C17 C18 C19: refinement to abstract multimap / list, induction over operation sequences.
C20–C25: induction over paths with the lens model. C26, C27: the path tokenizer against a component grammar. C28 definitional plus lens laws.
C29: composition of C01/C20. C30–C37: type-class instances, induction over lists; numeric ones in the IEEE model.
C38: induction over values.
C39–C44: the derive crate is modelled on token lists (`Model/Token`, `Model/Derive`): the attribute, field, type and struct parsers, `Lit`'s
  decoding of string literals, and the generated `encode`/`decode` bodies. The *written-out* output of the macros is then given a semantics (`Model/Generated`: `obj.get(key)`,
  `decode`, `add_option` in field order), for arbitrary field lists. Recogniser theorems: a grammar of well-formed structs with notes (`Spec/Struct`, `Spec/Tokens`, `Spec/RustStr`) is
  accepted and gives the expected items (induction over the grammar), and what the code refuses.
C45: folds of `append`/`push`.
C46, C47: rounding to nearest, ties to even, over ℚ (`Spec/Ieee` defines the value of a bit pattern independently of the model); monotonicity of rounding and gap arithmetic.
C48: the printer searches the largest exponent at which some decimal rounds to the number; monotonicity of rounding gives that the search is complete, hence fewest digits; the nearest candidate by an
  interval argument. Competing literals are all literals `parse` accepts.
C49: case analysis; for paths induction over the path, for conversions induction over type expressions.
C50: induction over pairs of syntax trees: the longest run of whitespace, digits, string items is determined by the text (`Proof/Unambiguous`). With C02 and C04 this gives injectivity of printing.
C51: induction over the document against a syntax tree with the same text (`Proof/NonFinite`).
C52, C53: `Model/Quote` is the macro as a rewriting function on token lists (`__append_to_token!` rule by rule); `Spec/Quote` a syntax of templates with a denotation. Induction over templates, one lemma per form.
C54: case analysis on the byte table. C55: `Model/DeriveCode` runs the templates in `json_derive/src/lib.rs` through `Model/Quote`; the expected code is written out in `Spec/DerivedCode`. Induction over the fields.
C56: `__translate` is fuelled; substitution (`Spec/Subst`) by induction on nesting depth; results do not depend on the fuel (monotonicity); non-termination by induction on fuel.
C57: the commands of `@scope` as a state machine (model) against a structured language (spec); simulation, induction over programs.
C73: `Spec/Macros` gives expansion as a big-step relation and programs as relations over it; `__translate` and the relation agree in both directions (induction on the derivation; induction on the fuel and the length of the stream), the map holding values under their names, macros under `f-` and `f+`; splitting at commas by induction on the length; programs statement by statement, both directions.
C74: `Spec/Placed` reads a scope as words and says after which words a word may stand; an invariant relates the words so far to the state of the scope, in both directions (soundness: every command that runs stands where it may; completeness for commands that fail only by their place).
C75: the arms of `quote!` and the rules of `__parse_options!` as functions on token lists; induction over the list of options (the mode that is left is the last one set).
C76: the 17-digit rounding of a number lies strictly between the midpoints around it (gaps are at least a 2^53rd of the number), so the shortest decimal (C48) has no more digits; multiples of 10^-324 always suffice; literals of up to five characters by their exponent; documents by induction on the length of the text along C58's pieces.
C77: `Model/Nested` ties the generated code of `Model/Generated` and the trait implementations of `Model/Convert` together for a whole program (calls at most as deep as the value or document
  is large; shown independent of that bound); round trip by induction on the typing of the value, decoding by induction on the size of the document, both against inductive relations in `Spec/Nested`.
C78: distance of the neighbours of a float bounded above (dual of C76), so a 15-digit decimal and the shortest one that rounds to the same float are multiples of one power of ten that differ by less than it; documents:
  `Spec/Digits` gives the exact value (numbers in ℚ) of a syntax tree, related to the f64 value by replacing each number by what is printed for it. C79: from "nearest" alone (C46), truncation is monotone.
C80: from C01, C04, C50. C81: congruence of the member lookups (C41) and C39.
C82: induction on types (built-in) and on the document (derived); the members of two objects with the same content are matched name by name, and key by key if no two names are the same key.
C83: step lemmas for the loops of arrays, objects and strings: with something after the text they end in `skip trailing`, cut off they run into their missing-bracket case; the closing bracket of a counted slice is found by counting, so induction on the loop's fuel suffices. Torn writes: round trip (C01) and truncation.
C84: `to_string` modelled once more with a counter (Model/PrintRun); induction on the value: each level copies the texts of its parts at most five times.
C85: casts: a float of magnitude above 2^53 is an integer, so `as` in both directions is exact on what was read, and the bounds of each type are powers of two or saturate; then induction over the type (built-in) and over the document's size (derived).
C86: relations between types (`Spec.Compat`) and between values (`Spec.View`) that do not mention the converters; induction over the size of the written value outside, over the derivation of compatibility inside.  `C86_unique`: by induction over `View`.
C87: the run of C67 (`Model/Run`) with an invariant of the two loops: the characters of the parts handed to recursive calls so far, plus those of the current part, are at most those consumed; depth by the same induction, against `Spec.Inside` of C84.
C88: `Spec.Upgrade` (C86 without changes of container kind) is closed under composition, `Spec.View` along it too, and determines what is seen up to `Back` (C77); induction over the chain of readings (`Spec.Migrated`).
C89: `Spec.nodes` counts values; the reference returned by `find_mut` satisfies nodes(put x) + nodes(val) = nodes(doc) + nodes(x); induction over paths and histories; over texts as in C76. Depth by `Spec.Inside` (C84).
C90: `Spec.Numeral` is the grammar of Rust's number literals, `Numeral.Is` what they denote (rational value, nearest `f64`); proved over `RMeta.parse` by the characters suffix trimming can remove, and the rounding theorem of C46.
C91: the completeness and exactness proofs of C08/C09 are carried out over `Cst.Wordy` trees (`Spec.Words`), whose `num` leaves carry any word; C08/C09 are the special case in which the words are numbers. `to_string` prints such a tree also when numbers are not finite, which gives C01_round_trip_exactly and C51_rejected_anywhere.
C92: `Spec.Modify` extends the templates of C52 by modifiers; `Proof.QuoteFuel` proves that the recursion bound of the expansion does not matter above the size of the template, so that a modifier means the same inside a template as alone.
C93: `Spec.Store` is a plain map with get/set/del; proved by a simulation step (`store_step`) from C72's text step and two lemmas on the abstract document: `set` elsewhere neither changes nor creates anything at a place that ends in a key, `del` likewise.
C94: bracket counting is additive and escaping does not change it, so by structural induction the printed text of a printable document is balanced; then C01 at every level of wrapping.
C95: `Spec.Log` (one text per line, cut after any number of characters, runs of a writer that crash); induction on the records and on the runs, from C01, C03 (no newline in a text) and C83 (a proper prefix is refused).
C96: `Model/Assign` threads the caller's variables through the commands of a scope (a statement is an arbitrary partial function on them); `Spec/Assign` is the language of C73 with that state; the induction of C73 over states.
C97: `Model/PathRun` repeats the path functions with counters; lengths by induction over the path, the loop of `parse_path` by its own induction, the sum of the appends by induction over the components.
C98: `Spec/Flatten` lists the leaves; a relation `Built` (a part of the document under construction) is kept by every call, a leaf once in place stays (the path is not above a later one, or the later one brings it), and a part with all leaves is the whole by induction over `Built`.
C99: sorting puts an entry at a position that depends on its key only (`insertByKey` splits the list), joining with commas splits around an item; `focus` by induction over the path gives the stretch and a document with another value there, which has the same abstract value as the result of `set` or `del` (C23, C24) and hence the same text (C04).
C100: `overlay` (Spec/Layers) is a deep merge by recursion over the overlay; the leaves below a component act on its value only (`lay_under`), so the calls in the listed order give it by induction over the overlay (`lay_leaves`); leaves of one document are at places that part, so the order does not matter (`lay_perm`, `setV_comm`), nor do repetitions (`lay_set`).
C101: `VEq R` relates documents that differ in numbers only; the specification of histories (C70) respects it step by step (`alike_step`, by cases on the call; `look`, `setV`, `delV`, `change` by induction over the path), both runs are the only ones the specification allows, so the relation carries over; `R := ==` with C38 gives the statement for equal documents, and `R` = anything says that numbers are never looked at.
C102: `Below B a` says that a call concerns the member `a` of the object at `B` only (stated with the meaning of paths from C70). Frame lemma `share_step`: a step of the specification of histories reads and writes that member only (`share_*` for one object, `at_*` to carry it below `B`). Induction over the schedule projects a run to one client (`share_alone`) and finds the client that panics (`share_panic`); determinism of the specification gives the rest.
C103: the grammar of path texts (`Pieces`, C26) is closed under joining with a dot; `find`, `find_mut`, `discard`, `update` along a concatenated path are computed by induction over the first path, as equations between the results themselves (not only the abstract documents), the lens law of `find_mut` giving the case where the second part fails.
C104: `Moved B c c'` relates a call to the same call one place further in (stated with the meaning of paths from C70); with the frame lemmas of C102 (`at_*`) a step of the specification moves both ways (`moved_step`, `moved_back`), and so does a history. Changes at places that part commute and do not see each other (`part_look`, `part_comm`); induction over a schedule projects it to one client (`rota_alone`), finds the one that panics (`rota_panic`), and shows that the document in the end is the first one with the clients' values put in place (`rota_rebuild`). It extends C102 to elements of arrays and places at different depths, but the places must be there; a call that removes or creates its own place is C102's.
C58: `Spec/Accept` is the accepted language as an inductive predicate over glyphs (characters and backslash pairs); the loops follow it glyph by glyph; sound by induction on the length of the text, complete by induction on the derivation. C59: induction on the derivation; numbers by the IEEE model.
C66: `Spec/Refuse` lists the errors as an inductive predicate over the same pieces; the loops follow it (both directions) piece by piece, then induction on the length of the text / the derivation.
C67 C68 C69: `Model/Run` repeats the parser with an arbitrary `i32` arithmetic, a step count and a recursion depth; simulation against `Model/Parse` (the counters stay within the number of characters read),
  potential argument for the square (pieces handed to recursive calls are disjoint parts of the text), brackets counted for the depth; nested arrays computed by induction.
C70: `Spec/History` gives each call a meaning on abstract values (a step relation, with full errors); `Model/History` makes the calls on the models of the methods; one simulation lemma per call, then induction on the history. The relation is deterministic, hence hash order is unobservable.
C71: algebra of the specification functions `setV`/`delV` (one component at a time, induction on the common prefix), carried to the API by C23, C24, C25 and an exact condition for `set` not to panic.
C72: induction on the history; after each call the text is the old one or a printed document, which parses to the same abstract document (C01), on which the next call behaves alike (C70).
C60–C62: `Model/Items` is the rest of `json_parse` (attributes with source text, tuple fields, enums, functions, token counts); `Spec/Items` a grammar of declarations as records with their tokens (`toks`) and
  relations between a declaration and a parsed item (`StructIs`, `EnumIs`, `FnIs`). Recogniser theorems by induction over types, attributes and lists; agreement of the two struct parsers by erasure (`Proof/ItemLink`), on all token streams.
C63: `canon` gives the declaration that is written back; `canon` is well-formed and idempotent, so C60–C62 apply again. C64: induction over attribute lists. C65: each class by unfolding the parser at the offending place, for all declarations of the class.

## How "exactly which texts are accepted" is proved (C08–C15)

The container scanners of the code cut the text at commas/colons by counting brackets (in strings too) and quotes, so they accept some malformed texts. `Proof/Tok`, `TokRun` and `Exact`
describe the scanner as a run over lexical tokens (`JTok`: string, bracket, comma, …); `Spec/Malformed` lists what is wrong with a text; `Props/Exact` and `Props/Reject` prove which are accepted, which refused.

## Conventions of the derive model

* A procedural macro's failure (`Err`, or a `panic!`/`expect` in the macro, i.e. a compile error) is `none`.
* Code that the macros build as a string and re-lex (`format!(…).parse::<TokenStream>()`) is represented by the tokens it lexes to; `glue` is string concatenation followed by lexing. `TokenStream::to_string` is assumed to lex back to the same tokens.
* `Model/Items` also inspects the text of token streams (`TokenStream::to_string`, a parameter `text`). Three separate hypotheses on it: `Prints` (single literals and identifiers print as themselves, parenthesised and bracketed groups
  start with their delimiter), `Spaced` (a space between `Fn` and `(`; only needed for closure types as results), `Tight` (no space after a minus sign; only needed for negative discriminants). Different rustc versions satisfy different
  ones; `sample_prints` shows that all three hold of one printer. Structs (C60, C63_structs) and attributes (C64) need none.
* Trusted for these properties besides the general base: rustc's lexing of literals, and that struct-literal fields are evaluated in written order.
