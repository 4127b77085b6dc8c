# Formal model of actiondb in Lean 4

## Layout

* `lean/Verif/Rust/*`  – the few Rust std operations the code uses (str slicing, `find`, `replace`,
  `binary_search_by`, stable sort, `BTreeMap`/`BTreeSet`).
* `lean/Verif/Model/*` – the model of the code, one definition per Rust function, each citing file and lines.
* `lean/Verif/Spec/*`  – small specifications, written without reference to the model's algorithms.
* `lean/Verif/Proofs/*` – helper lemmas.
* `lean/Verif/Props/*` – the property theorems, each with an `example` (or a concrete theorem) showing that its hypotheses
  are met by a non-trivial case.
* `lean/Verif/Instances/*` – the property theorems applied to concrete cases: the value of each `example` is a theorem with
  all its hypotheses supplied for non-trivial data, so the hypotheses can be met together.
* `lean/Verif/Conformance/*` – the tests of the repository, run on the model.

## Modelling decisions

* A Rust `str` is a `List UInt8`. `Utf8 b` says the bytes are the UTF-8 encoding of some list of characters.
  Slicing is partial: it yields a `Panic` unless both ends are character boundaries, as in Rust.
* Every possible panic (slice, unwrap/expect, unreachable!, index) is an explicit error value `Except Panic α`.
  `Result`/`Option` of the code stay data.
* `&mut self` methods return the new value. A function returning `&mut T` into a structure (for example
  `lookup_literal_mut`) is modelled by taking the update to be done through the reference as an argument and
  returning the updated structure.
* `usize` is `Nat`, except where 64-bit width is observable (number parsing, bytes fed to the hasher).
* The hash of a parser (`hash_os`) is `sip (feed p)` where `feed p` is the exact byte stream given to the hasher and
  `sip : List UInt8 → UInt64` is an arbitrary function (so every theorem holds for SipHash). Theorems that need it
  assume no collision *among the parsers of the patterns in question*, never global injectivity (which would be
  unsatisfiable).
* `BTreeMap<String,_>` is a key-sorted association list, `BTreeSet<u8>` a strictly sorted byte list.
* Recursion is structural or well-founded; there is no fuel. The PEG `loop`s of the grammar, which in Rust have no
  visible measure, stop with an explicit `diverge` error if an iteration does not consume input; this is proved never
  to happen (C32).

## Properties: what is modelled and how each is proved

| id | modelled | proof |
|----|----------|-------|
| C01, C02 | `utils/common_prefix.rs` on bytes | induction on the loop; UTF-8 boundary lemmas |
| C03, C04 | `utils/sortedvec.rs` over an arbitrary lawful order | invariant over operation sequences; loop invariant of both binary searches |
| C05–C10 | `parsers/*.rs` | characterisation of the run length / leftmost occurrence; C09 and C10 are false in general: a refutation with a concrete witness and the positive part as `_partial` |
| C11, C12, C51 | `matcher/trie/**`, `matcher/result.rs` | path relation from trie to patterns, invariant of insertion, induction on parse |
| C13 | same | well-formedness invariant (sorted, non-empty labels, ASCII, inner nodes have children) |
| C14 | same | false: witness; partial is C13 |
| C15, C16, C21 | same | lookup/insert lemmas for the radix tree, refinement to a finite map |
| C17, C20 | same | false: witnesses; partial for literal / incomparable families; C20 also for every rearrangement that keeps the order of dependent patterns (`Spec/Independent.lean`: additions to the table of C65 commute unless they are dependent, and a list can be rearranged by commuting neighbours), and a proof that the dependence is real |
| C18, C52 | same (+ grammar) | induction on the token list |
| C19 | same | abstraction function from trie to list of heads |
| C22 | same | induction on the list of parser children |
| C23, C24 | same | direct / idempotence of insertion |
| C25–C31 | `matcher/suffix_array/**` | sortedness invariant, neighbour argument for the longest common prefix; C28, C30, C31 false in general: witnesses and partial results |
| C32–C39 | `grammar/parser/pattern_parser.rs`, `grammar/mod.rs`, `parser_factory.rs` | function by function PEG model; invariants `pos ≤ next ≤ len`, boundaries; round trip by induction on tokens. C32 (overflow), C35 (dash), C36 (after GREEDY) false in general |
| C40–C43 | `matcher/pattern_source/mod.rs` | fold over the source; C43 false: witness |
| C44 | `matcher/pattern/testmessage/message.rs` | direct |
| C45–C48 | `pattern/file`, `pattern_loader.rs`, `*/deser.rs` | over an abstract document tree and file system; C48 false |
| C49 | `hash_os` of the three parsers | injectivity of the byte stream |
| C50 | `clone` functions | structural copy equals the original (aliasing does not exist in the model) |
| C53 | both matchers | false for empty remainder: witness; holds for non-empty remainder |
| C54 | trie, grammar | from C11/C12 machinery |
| C55, C56 | grammar | every rule fails only at or behind the end of what can be completed; induction over the rules |
| C57, C58 | grammar | soundness and completeness of each PEG rule against the documented syntax (`Spec/Grammar.lean`) |
| C59, C64 | `pattern_loader.rs`, path extension | by the model of `Path::extension`; C64 false: contents that are not text are read as the empty text |
| C60, C61 | `pattern_source/mod.rs`, `factory.rs`, `pattern_loader.rs` | composition of C40–C46 |
| C62, C63 | `testmessage/deser.rs`, `file/deser.rs` | loop over the entries of the document object |
| C65 | trie | refinement of the trie by a flat table of leading literals (`Spec/Table.lean`): what each addition does to the set of entries, where the descent stops, and that this agrees with the table |
| C66 | trie | `Spec/Panics.lean` says when matching runs into trouble; `walk` with the panicking comparison (a binary search whose comparator fails), then induction over one pattern's tokens, over the parser-led patterns, and the table of C65 |
| C67 | grammar | every rule only adds entries that the rest of the string does not begin with, and marks at least one when it fails (`Proofs/GrammarExpected`) |
| C68 | grammar | each entry with a completion, carried through all rules (as C55, per entry); false for digits after a digit and for `[-]`; the converse is false (witness) |
| C69 | `pattern.rs` | composition of the JSON parser (parameter) with C47 |
| C70 | `impl Display for ParseError` | decimal numbers and the back-quoted entries of C67 can be read back from the text |
| C71 | `impl Display for testmessage::Error` | fixed texts and 36 characters of uuid in front; false where two free texts run into each other (witness) |
| C72 | `compiled_pattern.rs` | induction over the calls |
| C73 | suffix array | `Spec/SuffixAnswer.lean` describes the answers by the history of additions; neighbours of the insertion point have the longest common prefix, including which one is taken (`Proofs/SuffixTableAnswer`) |
| C74 | suffix array | `Spec/SuffixPanics.lean`; exact outcome of every parser, lifted through one pattern's tokens, the parser-led patterns and the chosen literal (`Proofs/SuffixPanic`) |
| C75, C76 | trie | `Spec/Family.lean`: lists of patterns that do not disturb each other and their answers in terms of the patterns; proved from C65 by describing the table of such a list (`Proofs/Family`, induction over the list) |
| C77, C78 | loader, both matchers | composition of C60, C61, C46, C63 with C65, C73, C13, C74; panics of deserialization by induction over the document; for any script, C66 and C96 decide every step of the loader (`Spec/FilePanics.lean`) |
| C79 | trie | the answer of the table before and after one addition (C65), by cases on how the new leading literal meets the old ones; induction over the additions |
| C80 | trie, suffix array | both answers computed from their own specifications (C75, C73) and compared |
| C81 | loader, trie | composition of C40/C60 with the sequence theorem of C79; the part of C43 that holds in general |
| C82 | loader, `Display` of the errors | composition of C41 with the texts of C71: each of them has the uuid in front |
| C83 | `pos_to_line` | loop invariant over the lines; exact formula for every string, false with `\r\n` (witness) |
| C84 | setters of the parsers | induction over the calls: the state is a function of the last argument of each kind; then C05, C06, C07 |
| C85 | the matchers, recording every parser call | the recording functions return what the originals return (induction over the tree); the calls of a run are at most the parsers in the tree, and insertion adds at most the parsers of the pattern |
| C86 | `Spec/Peg`: parsing expressions on characters and the grammar file written in them, rule by rule | each template of the generated parser implements its parsing expression (`Proofs/Peg`); expressions have at most one outcome; composition gives every rule |
| C87 | weights of all nodes of a trie or suffix array | each insertion adds at most the weight of its tokens (the relation `Ins` case by case; splitting a node keeps the bytes of its label) |
| C88 | `Model/Stack`: the `parse` functions with a number of stack frames that are left | each insertion keeps the longest path within the longest pattern; with frames for the longest path the bounded functions return what the originals return (induction over the frames) |
| C89 | `Model/Pdb2adb`: `_p2p` and `_validate_pattern` on characters, with Perl's `split` | `Spec/PatternDb` says what a patterndb pattern stands for; loop invariant over the pieces, then C58; false for text with `%{` (witness), and exactly for text with `%{` or `\%\{` outside the end of a GREEDY: a pattern string has only one reading |
| C90 | `Model/Pdb2adb` | false (witness); what holds: such a pattern is refused as a whole |
| C91 | `Model/Pdb2adb` | the loop stops with failure at the first unsupported parser; trailing fields that `split` drops lie behind it |
| C92 | `Model/Pdb2adb`: the loops over rules and patterns, producing a document; `Model/Deser` | `Spec/ConvertedFile` says what is expected; loop invariants over the counters, C89, C91 and C63; false if an example has no values (witness); the file can be loaded exactly if the examples of the rules with converted patterns have values |
| C93 | as C92 | the numbers in the names and the texts of the uuids are different; the number can be read off a name |
| C94 | as C92 | from C92: with different ids, exactly if the first pattern is converted; false otherwise (witness) |
| C95 | the matchers, counting the comparisons of a stored literal with the text | the counting functions return what the originals return; a binary search among fewer than 2^k entries makes at most k probes; first bytes of the children of a trie node differ, so there are at most 193; every descent consumes a byte; below its root a suffix table has one entry per table |
| C96 | trie | invariant: of the literals of siblings none begins with a non-ASCII character unless it is alone (`SepTree`), so binary searches and sorting panic exactly if a comparison can; a lookup, a split and a push panic exactly if `InsClash`, which is translated to the table of C65 |
| C97 | `Model/StackAdd`: the functions that add a pattern, with a number of stack frames that are left; dropping replaced children is not counted (C132 bounds it) | in a reachable trie each step down of a lookup consumes at least one byte of the literal (invariant: nodes without a value have a label), and the lookup after a split does not go down; induction over the frames |
| C98 | suffix array | the chosen leading literal before and after one addition (C73): it is an old one, and then its clause of the specification is untouched, or the new one; every text has an answer (existence by cases on the specification), so additions compose |
| C99 | loader, suffix array | composition of C40/C60 with the sequence theorems of C98 |
| C100 | suffix array | the specification of C73 depends on a history only through the set of its patterns, the last pattern for each leading literal, and the table's list of parser-led patterns; each is kept by a rearrangement that keeps the order of dependent patterns |
| C101 | trie, suffix array | on the table of C65: rows that no continuing pattern at a shorter text covers are permanent; after `i` additions of the second round the rows are those of the first `i` additions laid over the finished ones (`Overlaid`), by induction; the patterns that begin with a parser likewise; for the suffix array the last pattern for each leading literal is unchanged |
| C102 | trie | restricting the table of C65 to the rows with a first byte commutes with every addition (literals are not empty); stop points below a text with this byte, the answer and the panics are those of the restricted table |
| C103 | `Model/PdbXml`: the handlers and the walk over the tree | `Spec/PatternDbXml` defines patterndbs, their XML and what is to be read; every element changes the entry of its own rule only; induction over parts, rules and rulesets |
| C104 | `Model/PdbXml`: options and main program | C103, then C92 for the rules in any order; the conditions for stopping and for loading (`C104_exactly`) are exact |
| C105 | `Model/PatternApi`: calls on a pattern and their values | induction over the history; tokens are a queue that setting refills, test messages a stack |
| C106 | `Spec/Pieces`: `Pieces text caps`, the values stand in the text in order and apart, each being what its parser takes there | induction on the size of an arbitrary state over the mutually recursive `parse` functions of both matchers, no reachability or hash hypothesis |
| C107 | `Spec/PatternDbAnswer`: which patterns a patterndb offers; the models of the script, the file loader and the trie together | composition of C104, C46, C61, C63 and C11; the meaning of a converted pattern and its UTF-8 literals from the grammar theorems |
| C108 | `Model/Description`: `description()` of test message and build errors, the libraries' descriptions abstract | case analysis over the kinds |
| C109 | as C108, with the texts of `Model/Display` | false for a test message that matches nothing (other words) and for an unsupported extension (a typo in the text): refuted for both whatever the details, proved for all others |
| C110 | `Spec/Filled`: `Filled values toks x`, the text made by writing the values into the pattern | from C11 and C12: with distinct names every capture is a value of the answer; the written text is unique because the keys of the values are; a theorem shows that the suffix array differs |
| C111 | `Spec/Satisfiable`: conditions on single tokens and on neighbours | necessity by induction on a match; sufficiency by building a text from the last token to the first, each SET value one character over and over, the quotation mark (which no SET argument can contain) as value of a GREEDY; then C52 and C11. For any script `Spec/SatisfiableAny` and the exact conditions for panics of a matcher holding one pattern (`C52_exactly`, `C29_exactly`) |
| C112 | `MatchResult.values`, `TestMessage` merging, `fromSource` | false: counterexample loaded with a passing test message; instead, from C11: keys of an answer's values are names of parsers; from C44: what merging gives |
| C113 | `Spec/Extension`: the part of a message that belongs to the last token, what can be added behind it | induction on a match: a parser that leaves text takes the same when more text follows; then C52 and C11; in any script the same induction tells which additions cut a character |
| C114 | `Model/CostAdd`: the functions that add a pattern, counting comparisons of stored literals and of hashes, and one for each element sorted; moves of memory are not counted | the counting functions return what the originals return; in a reachable trie a node has at most 193 literal children and each step down consumes a byte; the rest of the pattern goes to empty nodes; the lists at the root grow by at most one with each addition |
| C115 | nothing new; `Spec/Relabel` says what a change of labels is and when two runs are the same but for labels | the tables that specify both matchers are mapped entry by entry under the change; hash keys of leading parsers stay apart; the characterisations of answers and of panics transfer through the mapped table |
| C116 | `Spec/Kept`: `GoesOn`, `LongerLed` | on the table that specifies the trie (`Spec/Table`): adding sets the row of the literal or leaves a table in which no row holds the pattern; uuids that tell patterns apart turn the latter into a claim about answers |
| C117 | `Spec/Kept`: `DistinctHeads`, `Late`, `LeavesAt` | induction on the history: the row of a literal holds its pattern unless that was late; then the characterisation of answers by the table |
| C118 | `Spec/Kept`: `LastOfKind` | from C73: the chosen literal asks only the last pattern of each kind; a literal with more in common with the text than every other is the chosen one |
| C119 | `fromSource`, `fromFile`, as in C40 and C61 | C40 gives the matcher in which each message was checked; a passing message excludes the second case of C116 and, by C117, that the pattern came late; C117 for the finished trie |
| C120 | `compile`, `SuffixTree.build`, `parse` | the token list for a text is built by cutting it at the occurrences of the escape sequence, by induction on its length; C33 gives the pattern string and what can be written, C52 the answers; for the empty text, the shape of compiled patterns (C34) leaves only a final GREEDY |
| C121 | `SuffixTree.build`, `SuffixTable.build`, `hashOs` | induction over the additions: the parsers of a trie or suffix array stem from the leading parsers so far, and an added parser is looked up by its hash only, so it can be exchanged for the first one with that hash; C11 then gives soundness without an assumption on the hash function |
| C122 | `loadFile`, `fromFile`, `fromFileIgnoreErrors` over a document tree that both text parsers deliver | both branches of the loader share all but the mark on an error; errors of the patterns themselves are errors of test messages, by induction on the list; the file system is used only to open the given path |
| C123 | `deserPattern`, `deserTestMessage`, `deserFile`, `loadFile` | one exchange of neighbouring entries at a time (`Spec/SameData.lean`), by induction on the place where it happens; the meaning of documents is that of C47, C62 and C63 |
| C124 | `compile` | what a string compiles to is the meaning of its elements (C32); spelling (`Spec/Spelling.lean`) does not change the meaning, and the meaning determines the elements up to spelling, by induction on the number of elements and case analysis of the first token |
| C125 | `Parser.parse`, both matchers | parsers are told apart by texts of one repeated character and by their end strings; the exchange is proved for the tables of C65 and C73 (`Proofs/Replace.lean`, which also gives C115) |
| C126 | the messages of `warn` (`Model/PdbWarn.lean`) | false: the patterns ``, `@`, `0` and `0@` are left out silently; these are shown to be the only ones, by induction over the parts between `@`s; the messages are characterised one kind at a time |
| C127 | two runs of the script with different orders of hashes and different new uuids (`Spec/Rerun.lean`) | false: two patterns that begin with parsers can answer for each other, depending on the order; proved: the patterns are the same up to order and labels (the expected patterns are a function of the rules, and permutations carry over), and so are the answers if the order of the patterns does not matter (from C20, C100 and C115) |
| C128 | `SuffixTree.build`, `SuffixTable.build`, `parse` | false for both matchers: a lost pattern leaves a stop behind in the trie, and a pattern that matches nothing is still chosen by the suffix array; proved: the tables of C65 with and without a lost pattern differ in at most one empty row, by induction over the later additions; a pattern with a first parser of its own; replaced patterns of a suffix array, from C73 |
| C129 | `cause` and `description` of errors (`Model/Cause.lean`) | case analysis; the walk to the causes is an inductive relation (`Spec/Cause.lean`) |
| C130 | regular expressions of pattern strings (`Spec/Regex.lean`: pieces, readings); no new model | soundness from C11; the converse by induction on the reading if what follows a parser tells where it ends; `C130_exactly` builds a second reading whenever it does not; refuted in general (no backtracking) |
| C131 | parsers with looser limits (`Spec/Looser.lean`); no new model | a looser parser takes the same value (`looser_match`); carried through the tables of C65/C73 (`answer_loosen`, `suffixAnswer_loosen`); `C131_exactly`: no other exchange of ASCII sets keeps every value; counterexamples for the overtaken answer and for added characters |
| C132 | `Model/StackClone`: the derived `Clone` and drop code of both matchers, with a number of stack frames that are left | by mutual structural induction the exact number of frames a tree needs, the same for cloning and dropping; it is bounded by the height of C88 and computed for a single pattern |
| C133 | the trie and the suffix array; `Spec/Front`: a text in front of patterns | the table of C65 for the new patterns is the old one with the text in front of each row (induction over the patterns), the deepest stop point moves with it; for the suffix array the longest common prefixes, the order and the chosen literal move with it, and C73/C74 give equality |
| C134 | `Model/CostGrammar`: the generated parser of pattern strings, counting its looks at the string (comparisons with an expected text, character classes, taking a character); the actions and `pos_to_line` are not counted | the counting functions return what the originals return; a rule that matches is charged to the bytes it consumed, and a rule that fails after reading far (options, a `GREEDY` piece) is shown to leave only constant-cost alternatives behind it |
| C135 | the trie; `Spec/Rename`: patterns, messages and answers written with other characters | parsers and the matching relation commute with an injective renaming that keeps digits; so do the table of C65 (induction over the patterns), its stop points and its answer; the suffix array, which orders literals by their bytes, is shown by an example to answer differently |
| C136 | both matchers, the grammar; `Spec/Lengths`: the lengths a token list can have, their least and greatest sum | soundness (C11) gives the sums; induction over the tokens shows that all lengths between the bounds are sums, and a text for each is built from right to left, each SET repeating a character that the parser before it cannot take |
| C137 | the loader over both matchers, the grammar; `Spec/Satisfiable`, `Spec/Loader` | the text built for C111 and the answer for it (C52) give a message that passes; conversely the answer that made a message pass is a match of its pattern (C111 with C40) |
| C138 | both matchers over two lists; `Spec/Matching`, `Spec/Filled` (`UuidsTell`) | soundness of each matcher (C11, C28) gives a reading of the message by the pattern; readings are unique, and a strict and a loose reading of the same text agree |
| C139 | the loader over any matcher; `Spec/Loader`, `Spec/Messages` | the matcher of a load is the one built from the patterns without their messages (C40, C42); a message passes or not independently of its place in the list |
| C140 | `Model/Boxed`: a store of numbered matchers of both kinds and the calls on them; `Spec/Histories`: what each matcher holds | the invariant that every matcher in the store is the one built from the patterns it holds, by induction over the calls |
| C141 | the grammar and both matchers; `Spec/CompiledSize` | by induction over the elements of the string (C58): every element is at least as long as half of what it is compiled to; then C87 |
| C142 | the tables of C65 and C73; `Spec/Newer` | adding two patterns of the same kind one after the other gives the table of adding the second one; the first is moved next to the second over patterns it commutes with (C20); for the suffix array the last pattern of each kind is unchanged; counterexamples for the trie by evaluation |
| C143 | the loader and both matchers | a source loads iff every pattern passes among those before it (C40); for the suffix array the chosen literal and the last pattern of its kind are the same among fewer patterns (C73), for the trie stops and first matches (C75); counterexamples by evaluation |
| C144 | `runCalls` (Model/Boxed.lean), `held` (Spec/Histories.lean) | By C140 a program panics only at a call for which a new matcher with the same patterns panics; by induction over the calls all patterns a matcher holds meet its kind's condition, so C13 and C26 exclude that. |
| C145 | the loader and both matchers | by C40 a source loads iff each test message passes among the patterns before; by C102 (trie) and C73/C74 (suffix array) the outcome of a message depends only on the patterns of its group; soundness (C11) shows that a test message that passes in a trie begins like its pattern; counterexamples by evaluation |
| C146 | both matchers | the table of a history (C65) has its rows from the patterns with leading literals and its list of parsers from the others; outcomes and panics follow from the table (C66, C96); for the suffix array the chosen literal and the last pattern with it are among the patterns with leading literals (C73, C74) |
| C147 | both matchers | from the table of the history (C65): add the continuing patterns of its rows from short to long literals, then the literals alone, then for each row without pattern one that is lost, then the patterns with leading parsers; the rows are the same by induction over these four parts. For the suffix array: the last pattern of each kind (C73) |
| C148 | trie | in the table (C65) a literal is shut if there is a row with a longer text and no beginning of it has a continuing pattern; every addition keeps it shut; otherwise re-adding the continuing pattern of the beginning removes the longer rows (C116) |
| C149 | trie | in the table (C65), by the kind of the pattern: what displaces a row or the holder of a parser's slot, and what moves the longest stop point, is always the work of at most two other patterns; those two with the pattern form the smaller list |
| C150 | loader, trie | C149 for the list up to each pattern; the values and the metadata of the answer are those in the smaller part (C138, C11); C40 turns passing messages into a successful load |
| C151 | suffix array | C73/C78 (what the array answers and when it panics): the chosen literal and its last pattern are fixed by pairs; the place of a leading parser by threes (C149's lemma about slots) |
| C152 | loader, suffix array | as C150, with C151; while a source loads, the tested pattern is the last one, and the place of the last pattern is fixed by pairs |
| C153 | loader, both matchers | C40 (the earlier patterns were validated already), C150 and C152 for the last pattern |
| C154 | trie | C66 and C96 describe all panics by rows of the table; a panic of a lookup needs only two rows, one of a split only one, and few patterns give these rows |
| C155 | loader, trie | C154 and C149 for the last pattern: each way to panic shows in a part in which the last pattern comes after at most two others; induction over the source |
| C156 | trie | C149 fixes the rows, the longest stop point and the slots; each panic of C66 at these places shows in a part with the pattern and at most two others, because patterns with different literals keep their rows |
| C157 | loader, both matchers | C155, C152 and C154; a least failing part exists by induction over the length |
| C158 | trie: build and parse | from C96 and C66: a text that parts well from all row texts goes on well after every stop point; the common bytes are then whole characters |

## Trusted base

* Lean 4.33.0 kernel. Axioms: every theorem depends on at most `propext`, `Classical.choice` and `Quot.sound`
  (checked with `#print axioms`); some depend on none. No `sorry`, no `native_decide`/`bv_decide`, no own axioms.
* The faithfulness of the model to the Rust source (each definition cites its lines) and of the models of the parts of
  std that the code calls (`Rust/*`: `str` slicing and searching, `replace`, `binary_search_by`, stable sort,
  `BTreeMap`/`BTreeSet` as sorted lists, `Path::extension`, `BTreeMap` equality).
* Theorems about loading take a record `Deps` of arbitrary functions for what is not modelled: opening a file, the
  JSON and YAML text parsers, UUID parsing. The theorems hold for every choice of these functions.

## Modelled

| code | model |
|------|-------|
| `utils/common_prefix.rs`, `utils/sortedvec.rs` | `Model/CommonPrefix`, `Model/SortedVec` |
| `parsers/*.rs` | `Model/Parsers` |
| `matcher/pattern/pattern.rs`, `matcher/result.rs`, `matcher/compiled_pattern.rs` (types) | `Model/Pattern` |
| `matcher/trie/**` | `Model/Trie`, clones in `Model/Clone` |
| `matcher/suffix_array/**` | `Model/SuffixTable`, clones in `Model/SuffixClone` |
| `matcher/mod.rs`: the trait `Matcher` as used by a program with several matchers | `Model/Boxed` |
| `grammar/parser/pattern_parser.rs` (generated code, function by function) | `Model/Grammar` |
| `matcher/pattern/testmessage/message.rs` | `Model/TestMessage` |
| `matcher/pattern_source/mod.rs`, `matcher/factory.rs`, `matcher/pattern_loader.rs`, `matcher/pattern/file/*` | `Model/Loader` |
| `Display` of `ParseError`, `testmessage::Error` and `BuildError`, `CompiledPatternBuilder` | `Model/Display` |
| `description()` of `testmessage::Error` and `BuildError` | `Model/Description` |
| `cause()` of errors | `Model/Cause` |
| constructors and setters of the parsers | `Model/ParserApi` |
| `matcher/pattern/pattern.rs`: constructors and calls on a pattern | `Model/PatternApi` |
| both matchers with a record of the parser calls | `Model/Trace` |
| both matchers with a count of the comparisons with literals | `Model/Cost` |
| adding a pattern to both matchers with a count of the comparisons | `Model/CostAdd` |
| compiling a pattern string with a count of the looks at it | `Model/CostGrammar` |
| `parse` of both matchers with a bounded call stack | `Model/Stack` |
| cloning and dropping both matchers with a bounded call stack | `Model/StackClone` |
| `matcher/pattern/deser.rs`, `testmessage/deser.rs`, `file/deser.rs` | `Model/Deser` |
| `utils/pdb2adb`: conversion of one pattern, and of rules to a document | `Model/Pdb2adb` |
| `utils/pdb2adb`: the messages of `warn` | `Model/PdbWarn` |
| `utils/pdb2adb`: the handlers for XML elements, options, main program | `Model/PdbXml` |

## Checking the model against the code's own tests

The code cannot be run here. To catch mistakes in the transcription, every unit test and integration test of the repository
(101 tests in `src` and `tests`) was translated and is run on the model in `Verif/Conformance`, with SipHash as the hash
function. All give the result the authors expect. These are tests of the model; no theorem rests on them.

## Not modelled

* JSON and YAML text parsing (serde_json, serde_yaml), reading file contents from the operating system, UUID text
  parsing (all are parameters). A document is a tree of values; the order of the keys of an object is kept.
* Allocation, memory, `Debug` output, logging. The hash function is an arbitrary parameter of the theorems; SipHash-2-4 is
  written out in `Verif/Rust/SipHash.lean` (checked against test vectors of the reference implementation) and is the hash
  function of all witnesses and examples.
* Of the script `utils/pdb2adb`: parsing of options, the warnings of Perl itself, what is reported before an exception, and the XML parser itself (the model starts from the tree
  that XML::Twig builds). The model of its parts rests on our reading of Perl's `split`, regular expressions, truth values
  and undefined lists, and of the documentation of XML::Twig (`next_elt`, `last_child`, `parent`, paths of handlers).
