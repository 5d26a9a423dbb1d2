# Formal model of pest3: design

Subject: the `pest3` workspace in `/repo` (crates `core`, `meta`, `generator`, `derive`, `pest`), read as text.
Method: a Lean 4 model written function by function from the Rust source (every definition cites
file and lines), independent specifications, and kernel-checked proofs for all inputs.

## 1. Modelling conventions

* **Total functions.** Every modelled Rust function is a total Lean function. A path that panics
  (`unwrap` on `None`, slicing off a boundary, `unreachable!`, debug-mode underflow, failed `assert`)
  is an explicit result (`none` in helper functions, `Res.panic` in the interpreters).
* **`&mut` arguments** are returned as new values. State is kept on failure too, because the Rust code
  does not undo state on failure unless it does so explicitly.
* **Non-termination.** Rule references are recursive, so the interpreters take *fuel*; running out is
  the separate result `Res.oof`. Theorems never rely on a specific amount of fuel: they are of the form
  "if it returns, then ..." plus "there is a fuel with which it returns iff the specification derives a result".
* **Text.** `&str` is a list of Unicode scalar values (`List Char`, Lean's `Char` excludes surrogates
  exactly as Rust's) together with an abstract address (for the pointer comparisons in the code). Bytes are obtained with
  `String.utf8EncodeChar` from Lean core. Offsets are byte offsets, as in Rust. Byte-level code
  (`match_string`, `is_char_boundary`) is modelled on bytes, char-level code (`chars()`, `char_indices()`)
  on characters, and the two are connected by proofs.
* **Integers.** `usize` offsets are `Nat` (a `&str` cannot be longer than `isize::MAX`, so offset additions cannot
  overflow). `usize::MAX` in `RepMin` is `2^64 - 1`. `isize` slice bounds are `Int`.
* **Rule labels** (`R: RuleType`, a derived-`Ord` enum) are `Nat` (declaration order = discriminant order).

## 2. Layers

All modules are flat under `lean/Verif/`; property theorems are in `lean/Verif/Props/`.  "Model" modules transcribe code,
"specification" modules are written without reference to the model's helper functions, the rest are lemmas.

| Lean module | role |
| --- | --- |
| `Utf8` | model of `str` basics: bytes, length, `is_char_boundary`, slicing |
| `Position` | model of `core/src/position.rs` and `core/src/span.rs` (positions, spans, comparison, hashing) |
| `LinesSpan` | specification of lines by splitting the text, and lemmas |
| `Collect`, `Formatter`, `Snippet` | models of error collection (`core/src/typed/tracker.rs:216-296`) and of `core/src/formatter.rs`; `Snippet` is the specification of snippets |
| `Stack` | interface used of `pest2::Stack`; ideal snapshot stack; transcription of pest 2.8 |
| `Tracker` | model of `core/src/typed/tracker.rs` |
| `Node`, `Interp` | model of the node types (`core/src/typed/template/mod.rs`, `core/src/typed/template/repetition.rs`, `core/src/choice.rs`, `core/src/sequence.rs`, `core/src/typed/traits.rs`), both `try_parse_with_partial` and `check_with_partial` |
| `Pairs` | model of `PairContainer`/`PairTree`, `core/src/token/mod.rs`, `Pair`/`Token` iteration |
| `NeverFailed` | model of the infallible entry points |
| `Peg`, `PegTree` | specification: declarative PEG big-step semantics, and the trees it builds |
| `Matches` | vocabulary for runs of the model, in which combinator properties are stated |
| `Logical`, `Safety`, `Transfer`, `Fuel`, `Termination`, `Shift` | relations between runs (stack implementations, fuel, context) |
| `Trace`, `MessageSpec` | specification of what is tracked for errors, and of the messages |
| `Meta`, `MetaSpec` | model and specification of literals, ranges, bounded repeats of `meta/src/parser.rs` |
| `MetaExpr`, `MetaExprSpec`, `MetaExprLemmas`, `MetaExprRead`, `MetaExprFuel` | model of the reading of expressions, rules and imports from the pairs of the meta-grammar (`meta/src/parser.rs`); specification: levels of binding (`Written`), the meta-grammar (`Shaped`) |
| `Pest2`, `MetaGrammar`, `MetaFile` | model of the pest 2 recogniser; the meta-grammar `meta/src/grammar.pest` as data; reading of a whole file (`_parse` without the imported files) |
| `Pest2Rel`, `Pest2Term`, `MetaInv`, `MetaShape`, `MetaFileShape`, `MetaNames`, `MetaExprTotal`, `MetaFileLemmas`, `ExprEq` | the recogniser as a relation; it ends on every text; which pairs come out (`Shaped` …), and with which names |
| `MetaFileSpec` | specification: identifiers, what the items of a file mean, what can be written |
| `Ast`, `AstSpec` | model of `ParseExpr`/`ParseRule`, `Expr::replace`; specification: substitution |
| `Graph`, `GraphSpec` | model of the reference graph in `generator/src/typed/generator.rs` and `meta/src/parser.rs` (references, reachability); specification: chains, finite sizes |
| `SizeSpec` | specification: generated types of finite size (what the structs and the node types of `core` contain by value) |
| `Codegen` | model of `generator/src/typed/generator.rs` (expressions, rules, modules), `generator/src/typed/module.rs`, `generator/src/typed/output.rs` (literal wrappers), `generator/src/typed/getter.rs` (accessor tables) |
| `GrammarSpec`, `ScopeSpec` | specification: what a grammar means (`Meaning`), well-named and well-scoped grammars |
| `Linkage`, `Compile`, `GenComp`, `GenLink`, `LinkExists`, `LinkGen`, `Preserve`, `Reflect` | generated types as a program of node types; correctness in both directions |
| `Accessor`, `AccessorSpec`, `AccessorLemmas`, `AccessorBuild` | model of what the accessors of `generator/src/typed/getter.rs` return; specification: matched references in order |
| `RuleEnum`, `ForestSpec`, `ForestLemmas`, `NameLemmas` | model of the generated rule enumerations and of the names of the generated definitions (`generator/src/common.rs:42-101`, `get_rule`); specification: the tokens of a match (`Shows`) |
| `Items`, `ItemLemmas` | model of the tree of modules and types in the generated code (`Tracker::collect`, `Output::collect` of `generator/src/typed/output.rs`) and of how paths in it resolve |
| `Loader`, `LoaderSpec`, `LoaderLemmas` | model of grammar file loading (`meta/src/parser.rs:283-455`, `derive_typed_parser`) |
| `Derive`, `DeriveSpec`, `DeriveLemmas` | model of the derive macro: attributes, sources, loading, generation (`generator/src/typed/attr.rs`, `generator/src/config.rs`, `derive_typed_parser`, `generate_typed`, `generate_include`) |
| `Idents`, `IdentSpec`, `IdentLemmas` | model of the identifiers the generator makes and of `format_ident!`; specification: which identifiers Rust accepts |
| `Rename` | model of `meta/src/error.rs` (what messages call the rules of the notation) |
| `DocComments` | model of documentation comments (`parser.rs:467-484`, `:593-617`, `common.rs:42-101`) |
| `DocSpec` | specification of documentation in terms of the text |
| `DocTrees`, `SpaceInv`, `DocInv`, `DocLemmas` | lemmas about what is skipped between tokens and about documentation |
| `InlineNone` | lemmas: inlining leaves grammars without silent rules with parameters as they are |
| `ShowPair` | `core/src/token/mod.rs:42-56` (display of token trees), derived `Debug` of the rule enumerations |
| `Located` | model of reading grammars once more, with the spans of rules and expressions and the places of errors (`parser.rs:34-76`, `:324-402`, `:457-540`, `:581-591`, `:619-888`) |
| `LocatedSpec` | specification: what stands where in a text, and what is wrong at the place of an error |
| `LocatedErase`, `LocatedMono`, `LocatedRel`, `LocatedTok`, `LocatedExpr`, `LocatedNode`, `LocatedFacts`, `LocatedFile`, `LocatedEq` | lemmas: positions change nothing; inversion of recogniser runs with positions |
| `RewriteSpec` | specification: expressions that match the same (`AgreesAt`), with the same tokens (`SameAt`), in all grammars (`Same`); grammars that differ in such expressions (`Alike`) |
| `MeaningInv`, `ShowsInv`, `RewriteLemmas`, `RewriteLaws` | lemmas: what each operator means as equivalences, `Meaning` and `Shows` are functions; operators keep `SameAt`; exchange in grammars; repetitions with one item more |
| `LeftSpec` | specification: what may match the empty text (`CanBeEmpty`), what may be tried before a character has been taken (`MayStart`), grammars that are not left recursive (`NotLeftRecursive`), rules that always try each other first (`LeftRecursive`) |
| `LeftLemmas` | lemmas: something that matches the empty text can be empty; expressions, rules and closures have a result by induction on the text that is left, the rank of the rule and the expression; rules that always try each other first have none |
| `AttemptSpec` | specification: which rules of a grammar are tried where, with which outcome, and which accesses to the stack are illegal (`Tries`, `FullTries`); numberings of the rules (`Ranks`, `Numbered`) |
| `AttemptLemmas` | lemmas: the events of the generated structs are those of the grammar; whatever has a meaning has events |
| `ThroughSpec` | specification: tokens and events of grammars in which calls of silent rules with parameters of the top module are transparent |
| `ThroughLemmas` | lemmas: they are the tokens and events of the grammar after inlining |
| `ThroughScope` | lemmas: well-scoped grammars can be inlined and stay well scoped; trivia rules are not touched |
| `AccessorTypeSpec` | specification: the types of accessors as they follow from the expression (C83) |
| `AccessorTypeLemmas` | lemmas: generated accessors have these types, and their values are of the types |
| `MovedSpec` | specification: grammars whose rules correspond (`Corresponds`), larger grammars (`Extends`), other names (`Renames`) |
| `MovedLemmas` | lemmas: rules that correspond match the same, show the same tokens and try the same |
| `MovedCases` | lemmas: rules of an imported grammar, of a larger grammar, and with other names correspond |
| `FirstSpec` | specification: how matches may begin (`Begins`), alternatives that begin differently, reordered grammars |
| `FirstLemmas` | lemmas: matches begin like that; the result of such alternatives does not depend on the order |
| `AheadSpec` | specification: which built-ins an expression uses, moving tokens and events, tokens at any depth |
| `AheadLemmas` | lemmas: what an expression does not use does not matter for its result, tokens and events; every token is a match of its rule |
| `TriesInv` | lemmas: what is tried, one equivalence per operator; it is unique |
| `EqualErrorSpec` | specification: expressions that lead to the same errors, or to errors naming the same rules |
| `EqualErrorLemmas`, `EqualErrorLaws` | lemmas: congruence, exchange in grammars, from events to the two errors; repetitions |
| `AnswerSpec` | specification: expressions that do not fail without a rule that is expected |
| `AnswerLemmas` | lemmas: they do not, and the furthest place has an expected rule |
| `WorkSpec` | specification: the number of times rules are tried; grammars in which the next character decides |
| `CountRun` | the model run with a tracker that counts; it counts the events of the trace |
| `WorkLemmas` | lemmas: in those grammars the number is at most proportional to the length of the text |
| `UnorderedSpec` | specification: grammars read without order, when the order does not matter, context-free grammars |
| `UnorderedLemmas`, `FreeLemmas` | lemmas: what may be matched is matched; the next character; what is generated |
| `BlankSpec` | specification: when the next character that is not blank decides |
| `BlankLemmas` | lemmas: matching behind blanks; what may be matched is matched up to blanks |
| `Memchr` | model: `core/src/position.rs` `skip_until` for the undeclared feature `memchr` |
| `MemchrLemmas` | lemmas: lead bytes and character boundaries, searches as `find?` |
| `States` | model: `generator/src/state_builder.rs` and the methods it emits, `generator/src/expr.rs` |
| `StatesSpec` | specification: `Matches` (with going back), `Onward` (without), syntactic conditions under which they agree |
| `StatesLemmas` | lemmas: numbers of methods, `Linked` relates bodies to expressions, runs and `Onward` |
| `JsonExample` | model: the texts and rules of `derive/tests/json.pest`, `derive/tests/common/base.pest` |
| `JsonSpec` | specification: JSON texts (RFC 8259, four points open) |
| `JsonLemmas` | lemmas: what the rules of the example mean, as functions on texts |
| `JsonLanguage` | lemmas: these functions and the specification |
| `JsonRead`, `JsonWell` | lemmas: the texts are read as these rules; names, scopes, trivia of the example |
| `CalcExample` | model: the text and rules of `derive/tests/calc.pest` |
| `CalcSpec` | specification: arithmetic expressions (three points open) |
| `CalcLemmas`, `CalcLanguage` | lemmas: what the rules of the example mean, as functions on texts; these functions and the specification |
| `CalcRead`, `CalcWell` | lemmas: the text is read as these rules; names, scopes, trivia of the example |
| `CsvExample` | model: the text and rules of `derive/tests/meta_rules.rs` |
| `CsvSpec` | specification: tables, rows, cells; their tokens |
| `CsvLemmas`, `CsvTable` | lemmas: what a call of `separated` means and shows, for any two arguments; tables |
| `CsvRead`, `CsvWell` | lemmas: the text is read as these rules; names and scopes of the example |
| `SkipExample` | model: the texts and rules of `derive/tests/skip.rs` and `derive/examples/reader.rs` |
| `SkipSpec` | specification: blanks, comments, `x` |
| `SkipLemmas` | lemmas: what the rules of the examples leave of a text; these functions and the specification |
| `SkipRead`, `SkipWell` | lemmas: the texts are read as these rules; names and scopes of the examples |
| `StackExample` | model: the text and the rules of `derive/tests/grammar.pest` |
| `StackTexts` | specification: the texts of these rules |
| `StackRuns`, `StackLang` | lemmas: what these rules leave of a text and of the stack; these functions and the specification |
| `StackRead`, `StackWell` | lemmas: the file is read as these rules; their names and scopes |
| `OpTexts` | specification: the texts of the rules of that file that use no stack |
| `OpRuns` | lemmas: what these rules leave of a text; these functions and the specification |
| `RecordExample` | the text and the rules of `derive/tests/meta_rules_silent.rs` |
| `RecordSpec` | specification: files of records, their tokens |
| `RecordRead`, `RecordWell` | lemmas: reading this text; the grammar is in order (`Hygienic`, `Expandable`) |
| `RecordRuns`, `RecordShows` | lemmas: what these rules leave of a text; their tokens |
| `SmallExample` | the texts and the rules of `derive/tests/issue27.pest` and `derive/tests/sequence.rs` |
| `SmallRead`, `SmallRuns` | lemmas: reading these texts; what these rules leave of a text |
| `ImportExample`, `ImportRead` | the text and the rule of `derive/tests/import.rs`; lemma: reading it |
| `ModExample`, `ModRead` | the texts and the rules of `derive/tests/custom_rules_mod.rs`; lemmas: reading them |
| `FastRead` | lemmas: a recogniser that counts what was consumed finds the same; used to run the reader in the kernel |
| `Inline`, `InlineSpec`, `Inline*` | model of `inline_silent_rules_with_args`; `Hygienic` grammars |
| `*Lemmas` and the remaining modules | lemmas |
| `Props/*` | the property theorems, with a non-trivial `example` beside each |

The Rust node types are *types* (`Sequence3<...>`), the parse functions trait methods. The model has one inductive
`Node` with one constructor per node type and two interpreters (parse, check) by recursion over fuel, each constructor's
case being a transcription of that type's method. A grammar is a map from rule ids to node bodies;
a monomorphic instance of a generic rule is its own rule id with the generic rule's label.

`pest2::Stack` lives in the external crate `pest 2.8` whose source is not in `/repo`. The interpreters are
generic over a record of stack operations. Facts that hold for *any* implementation are proved so; facts about undoing
are proved for any *lawful* implementation (one that simulates the ideal "list of saved stacks").

## 3. Plan per property

* **C01** `is_char_boundary` on bytes; prove equivalence with "cut between characters".
* **C02** every cursor function on `Position`; invariant "valid" preserved; results never `none`.
* **C03–C06** char-level specifications stated with list prefixes/`take`/`drop`; proofs by the UTF-8 prefix property.
* **C07, C08** loops modelled by recursion on the text; specification counts newlines in the prefix.
* **C09–C11** spans; `LinesSpan` as a stepping function, termination by growing offset.
* **C12–C15** formatter with the character-width function and styling closures as parameters. Where the code
  disagrees with the property (empty input), the negation is proved and a `_partial` kept.
* **C16** soundness (fuel induction) and completeness (induction on the derivation) between interpreter and `Peg`.
* **C17** fuel monotonicity; determinism.
* **C18** equality of the erased parse and check runs, by induction on fuel, for every stack implementation.
* **C19** entry points over the interpreters.
* **C20, C21, C27, C29** invariants by fuel induction.
* **C22–C26, C28** consequences of the interpreter equations, stated with the `Peg` specification or directly on runs.
* **C30–C32** structural induction over trees / pairs.
* **C33–C36** tracker refinement: an event log semantics (ghost), tracker state = function of the log; then the interpreters.
* **C37** simulation between runs on `s` and on `pre ++ s`.
* **C38** divergence by fuel induction; termination by a measure for well-founded grammars.
* **C39, C40** induction on iterations.
* **C41–C44** functions on characters/numbers; round-trip and exactness.
* **C45, C46** expression trees; specification = simultaneous substitution. Suspected failures get a negation with witness.
* **C47, C48** import graph as a function from paths to imports, depth-first loader with cache.
* **C49–C51** reference graph; fix-point iteration; cycle argument; sizes of the generated types (`SizeSpec`) by induction over modules and references.
* **C52** compilation to `Node`; semantic equivalence against a grammar-level PEG semantics.
* **C53** getters as path expressions evaluated on trees; occurrence listing as specification.
* **C54, C55** invariants over histories of insertions.
* **C56** comparison functions with explicit addresses.
* **C57, C58** interpreter equations for leaves; `skip_until` by induction over the characters.
* **C59** paths as lists of components.
* **C60** the message as a list of lines, one per group of attempts.
* **C61** resolution in the module tree is sound and complete for the specification's lookup; induction over modules.
* **C62** the writer as a state machine that may fail.
* **C63** the Pratt parser by recursion with fuel; every tree of the (flat) meta-grammar has a reading by levels of binding; induction over readings shows
  that the parser finds it; fuel monotonicity makes it the only one.
* **C64** construction of a fully parenthesised notation by induction on the expression.
* **C65** the tokens of a match defined on the grammar as written (`Shows`), shown equal to what the compiled node types emit (`Emits` of C31), by induction
  over matches in the manner of C52; labels of structs exist because the numbering of structs is injective.
* **C66** invariant of the module system: the names of processed imports and rules are taken.
* **C67** the meta-grammar as data for a model of pest 2; inversion of its derivations gives the shapes that C63/C64 ask for; termination by a check
  that no rule is left-recursive and no repetition empty; with it C63/C64 become statements about texts.
* **C68** the notation as inductive definitions on characters (`NotationSpec`), without the meta-grammar; for each part a derivation in the meta-grammar is
  built in every context it may stand in (`At`, `No`, `Loops` in `ForwardAt`), with the failures of the alternatives tried before (`mayStart`: sets of
  first characters); conversely a fully parenthesised text is written for every grammar.
* **C69** (`ShowExpr`) by induction on writable expressions the displayed text is derived in the notation of C68, at the level of its outermost
  operator; reading back is then C68, and different texts for different expressions follow because reading has one outcome (C67).
* **C70** the generated items as a tree of modules with declared types and their numbers of parameters; paths resolve relative to the module they stand in.
  Invariant of generation: whatever length of sequence or choice a type mentions has been recorded, and records are only added; references lead to rules the generator looked up.
* **C71** the attributes act one after the other (`effect`), so the result is the sources in order and the last value of each option; loading by C47/C48.
* **C72** the texts of all identifiers in the generated tree are collected; each is a fixed name, a name of the grammar or a name with a number appended.
* **C73** by cases over the rules of the meta-grammar; inversion and construction of recogniser runs.
* **C74** forward from `Documented` (the notation of C68 with what the lines of documentation say), and backward by inversion of the recogniser runs: every
  accepted text is divided into space, lines of documentation, imports and rules.
* **C75** composes C68, C47, C71, C61, C52, C65, C16 and C19 into one statement about declarations and inputs: whatever is proved of a part is used
  here through its theorem, so a gap between two parts would show.
* **C76** is unique readability: nothing of the writer is used in the statement but its result.
* **C77**, **C78** `LocatedSpec` is a second notation, in which every construct says from where to where it stands and what its span is; pairs of tokens do not
  occur in it. The recogniser with positions is inverted rule by rule; the Pratt parser with spans is related to the levels of the notation
  by the invariant that the span of an expression begins and ends where the first and last tokens without parentheses do.
* **C79** is about pairs of grammars. That two expressions do the same is said by `Meaning` and `Shows` for all positions, stacks and values of the parameters; the laws are proved from that. `Alike` relates the grammars rule by rule; the trivia rules have to be without parameters. `C79_parser` then goes through `C75_parser` for both. An expression `e ~`, as it stands in a repetition, is told apart by its form, therefore the side condition `sepTrivia a = .none` in laws one side of which is a letter alone. `C79_unfold` is restricted to rules without parameters, where a reference cannot be a parameter.
* **C80** is about the grammar as written, with parameters and modules. What is assumed about rules (`Assumed`: may be empty, parameters that may be empty or tried first, a rank) is a certificate that `NotLeftRecursive` checks rule by rule; the theorem says that every grammar with a certificate has parsers that return. Recursion through parameters is allowed, though arguments then are nested closures without bound: the induction is on the remaining text, then on the rank, then on the expression, and closures are handled by their own induction. A repetition whose body matches the empty text is not forbidden: the code stops after `usize::MAX` rounds (see C38), which is an answer in the model though not in practice.
* **C81** `Tries` is `Meaning` with the events of a match or failure, in terms of the rules as written. It is related to the events of the generated structs by the same simulation as C52 and C65, and determinism of the events gives the converse; C33, C34 and C60 then speak about the grammar. Labels are numbers of the values of the enumeration (`Numbered`), for any numbering that keeps values apart and puts the end of the input first; that there is a program labelled so is `C81_exists`.
* **C82** carries C75 and C81 over to grammars with silent rules with parameters. The simulation of C46 between the grammar as written and the inlined one is extended by tokens (`ShowsThrough` → `Shows`) and
  events (`TriesThrough` → `Tries`); the opposite directions follow as both sides are total on what has a meaning and the side of the inlined grammar is deterministic. `Expandable` is the condition under which inlining leaves no call; that the result is well scoped is an invariant
  of the parts of the expressions on the way (`PartOk`, `PartDone`).
* **C83** says what the declared types of the accessors of C53 are (`Accesses`). It was added as a wrong program that did not merge options (`Option<Option<&T>>`) was compatible with C53, which only speaks about the references in what is returned.
  `Accesses` is a relation read off the expression; it is shown to be a function of the expression by computing it (`computed`, in the file of the property).
* **C84** is about pairs of grammars, like C79, but there the names were the same and the expressions differed. `Corresponds` is a bisimulation between the rules: related rules have the same expression up to references, and references lead to related rules, the same built-ins, or parameters at the same place.
  One simulation per judgement (`Meaning`, `Shows`, `Tries`) then gives everything, and as the relation can be turned around (`Back`), both directions. In a larger grammar a reference must not be captured by what was added; that follows from the larger grammar being accepted (C61: names of imports and rules differ). The errors are equal as values, for numberings that agree on rules that correspond; the order of the derived `Ord` is not modelled beyond that (C81).
* **C85** `Begins` is the least relation closed under the notation, for expressions with what their parameters stand for, so no assumptions about rules have to be made up front. It is sound by induction on `Meaning`; nothing is claimed about the converse (it may say more than can happen, as the stack may hold anything). The result of alternatives that begin differently
  is described without an order (`result_alternatives`), which is why reordering, and grouping, does not matter; C79 then carries it to grammars and parsers, and C80 shows that the alternatives return.
* **C86** One induction for each of `Meaning`, `Shows` and `Tries` over any relation of places that the built-ins in use respect (`Blind`), used for places in different texts and for different stacks.
  Parsers follow by C65, as does that every token of a tree is a match; parsing again is for the text from the token to the end of the input, since a rule may look further than it takes.
* **C87** As C79, with `Tries` for `Shows` and any comparison of events that is kept by what happens before, after and around (`Comparison`): equality, and having the same set of reports.
  The error is a function of the events (C81), and which rules it names is one of the set of reports (`named_of`).
* **C88** By induction on what is tried: an answering expression that fails has reported an expected rule at the place where it was tried or further, and whatever matches has
  reports that keep up with the place reached by rules that tried others.  So the furthest place of all reports has an expected one.
* **C89** By induction on what is tried: an expression that fails without taking anything that could have begun it costs at most a constant (by the rank of the rules that may be
  tried first), every other costs at most a constant per character taken, and alternatives that are left behind have failed at once, because the next character decides.
  The parser is run with a counting tracker; the induction that connects runs and traces (`TraceRun`) is over any tracker that follows the events.
* **C90** By induction on how a text may be matched without order, for all results of the parser at the same place: the earlier alternative, or the further item, would be a
  match in the reading without order as well (C90_sound), which the condition excludes.  Whether the parser returns at all is C80.
  With blanks, by induction on what the parser does, for all ways to match in its place: what may be matched behind the first part is moved past the blanks that the parser has
  taken already.
* **C91** Both searches are `find?` over byte offsets; where a string that is not empty occurs there is its first byte, which is a lead byte, so the offsets tried are character
  boundaries and none is missed.
* **C92** `Linked` says of a body that it does what an expression says in a program; `genExpr` builds linked bodies (numbers of methods are fresh), and a run of a linked body is a
  derivation of `Onward`, by induction over the expression and, for repetitions, over the fuel.  `Onward` and `Matches` agree for steady expressions.
* **C93** The two files are read by the model of the grammar reader (kernel computation), so the rules are not transcribed by hand.  `Leaves` computes what every rule leaves of a text;
  induction over the length of the text for values, then soundness and completeness of these functions against `JsonText sample`.  C75 carries this over to the generated parser.
* **C94** As C93, for the calculator grammar: the file is read by the model of the grammar reader, `Leaves` computes what every rule leaves, and the functions are compared with `Program sample`.
* **C95** As C93, for a grammar with parameterised rules: `leaves_separated` and `shows_separated` treat a call of `separated` for any arguments, and are used twice, one inside the other.
* **C96** As C93, for two grammars with comments as trivia; what a comment is (`Open`: no earlier end) is stated without reference to how it is searched for.
* **C97** As C93, for the rules of `derive/tests/grammar.pest` that use the stack. The whole file is read (about a minute and 5 GB in the kernel). The specification mentions no stack.
* **C98** As C97, for the other rules of the file (predicates, sequences and repetitions with and without trivia, bounds, choices and sequences longer than the ones defined in `core`).
* **C99** As C95, for the grammar of `derive/tests/meta_rules_silent.rs`, whose parameterised rules are silent (through C82).
* **C100** As C96, for the grammars of `derive/tests/issue27.pest` and `derive/tests/sequence.rs`.
* **C101** As C97, for the grammar of `derive/tests/import.rs`, which imports that file.
* **C102** The modules of `Items` are followed along the path that `Output.code` nests them in (`generated_scope`); the tests as C100.

## 4. Trusted base

* The Lean 4.33.0 kernel. Axioms: at most `propext`, `Classical.choice`, `Quot.sound`; per theorem in section 7.
* The transcription from Rust to Lean (each definition cites its source lines and its simplifications).
* Behaviour of `std`/`core` string functions as described in the Rust documentation. Which characters `{:?}` prints as they are is a parameter (C69).
* Behaviour of external crates: `pest 2.8` (`Stack`, the recogniser of the meta-grammar, the Pratt parser), `unicode_width`,
  `syn/quote/proc_macro2`. What is assumed is recorded at the modelling definition.
* Resolution of paths in generated code (C70): `super`, modules and `pub use` as in the Rust reference; lifetimes and const arguments are not counted;
  the list of Unicode property types of the library is a parameter that contains the names the generator knows.
* Pratt parser of `pest 2.8`: the documented algorithm for infix operators is transcribed in `MetaExpr`.
* Recogniser of `pest 2.8` (with `pest_derive`): `Pest2` transcribes the documented meaning of pest 2 grammars (implicit whitespace and comments, atomic, compound-atomic
  and silent rules, the stack, which pairs are made).  `MetaGrammar` is `meta/src/grammar.pest` rule by rule.  As a check of this transcription (a test, not a proof) the model was run
  on the other `.pest` files in the repository, all of which it accepts.  That the pairs have the shapes of C63/C64 is proved (C67).
* Loading (C47, C48, C59): the file system does not change while a grammar is loaded.  The reading of a single file is a parameter there (`World.parse`); C67 says what it is.
* `PathBuf::from` of Unix.
* `format_ident!` (C72): `r#x` gives a raw identifier and panics for `_`, `self`, `Self`, `super`, `crate` and for what is no word; without `r#` any word is made, keywords included. ASCII names only, as the notation has no others.
* The message of a syntax error (C73) is put together by pest 2; only the names of the rules in it are modelled.
* `str::trim` and `char::is_whitespace` (C74) are modelled after the Rust documentation.
* Derived `Debug` of the rule enumerations (C76): the name of the variant without `r#`, and the payload in parentheses.
* Spans of pest 2 pairs (C77, C78): that of a pair reaches from the position where its rule began to where it ended, trailing implicit space inside included.
* `memchr::memmem::find`, `memchr2_iter` and `memchr3_iter` (C91) are modelled after their documentation.
* The methods emitted by the state builder (C92) are represented by what they are built of; the depth of the call stack is not modelled, nor that range patterns written `...` are refused since
  the 2021 edition.
* Unicode property tables and their names are parameters.
* Generated Rust code is taken to mean what its types say: `Linked` (in `Linkage`) relates a table of generated structs to a program of
  node types; that rustc accepts it is not modelled, except for finite sizes (C49–C51) and cyclic type aliases (C52).

Not modelled: token-stream printing in the generator, `std::fs`, thread/async behaviour
(there is none), benches and tests.

## 5. Findings

Where the code does not do what a property says, the negation is proved with a concrete witness (theorem named), and the property is kept with
the needed hypothesis.

| Finding | Theorem |
| --- | --- |
| `Span::lines` of a span ending at a line start also yields the next line | `C11_extra_line_witness` |
| `Display` of a span of the empty input panics | `C12_empty_input_witness` |
| `Display` of a span that starts at the beginning of a line shows the previous line first and its number | `C13_line_witness` |
| a raw string written with pounds denotes `"` (one pound) or `#` (more), whatever its content | `C42_pound_witness` |
| an unescaped `"` as the start of a character range panics, an unescaped backslash is rejected | `C43_quote_witness` |
| `Expr::replace` stops at the first argument of a call containing the parameter | `C45_call_witness` |
| inlining: capture by sequential replacement; lookup by the last path segment; bodies moved to another module; unused parameters; calls in call arguments; wrong arity panics; recursion diverges | `C46_capture`, `C46_other_module`, `C46_moved_body`, `C46_unused_parameter`, `C46_nested_argument`, `C46_arity`, `C46_recursion` |
| dependencies of shared imported modules are incomplete | `C47_nested_incomplete` |
| loading cyclic imports never ends | `C48_cyclic`, `C48_cyclic_diverges` |
| trivia rule using its own operator gives a cyclic alias | `C52_cyclic_trivia` |
| a built-in imported under an alias that is itself the name of a built-in is generated as the latter | `C52_renamed_builtin` |
| `Ord` and `Eq` of positions disagree for equal text at different addresses | `C56_ord_eq_mismatch` |
| `POP` stores the place the text was pushed from | `C58_pop_span_not_matched` |
| grammar files with other extensions look their imports up below the file; `use super` names a directory | `C59_other_extension`, `C59_super_alone` |
| a rule called `EOI`, a rule called like a trivia alias, two files imported under one name, two parameters of one name: accepted, but the generated code defines something twice | `C66_clash`, `C66_parameters_clash` |
| an import with arguments panics (`todo!`) | `C67_import_args_witness` |
| a text with `'"'` as the start of a character range panics | `C67_quote_witness` |
| after an import without `as`, a rule whose name begins with `as` is a syntax error (`use pest`, `ascii = …`) | `C67_as_witness` |
| `a ~\| b ~\| c` is a syntax error, `a ~\| b` is not | `C67_trivia_choice_witness` |
| `a = b`, then a trivia rule with parameters `~(c) = d`, is a syntax error | `C67_operator_rule_witness` |
| `use` must be followed by a space, not a tab; a line `////…` is documentation and a syntax error at the end of a file | `C67_use_tab_witness`, `C67_slashes_witness` |
| a leading bar before a sequence, `a = \| b - c \| d`, is a syntax error | `C68_bar_witness` |
| a rule called `_` cannot be the whole body of a rule without braces | `C68_underscore_witness` |
| documentation of generated code shows `i"x"` as `^"x"`, which is no expression | `C69_insensitive_witness` |
| documentation of generated code shows `a{1..2}` as `a[1..2]`, which is a slice, and `"x"{1..2}` as no expression | `C69_bounded_witness`, `C69_bounded_string_witness` |
| documentation of generated code shows `(&a)?` as `&a?`, which is `&(a?)` | `C69_predicate_witness` |
| with `rules_mod` set, paths into imported files lead nowhere (`m::rules::z`); `rules_mod = "generics"` declares a module twice | `C70_rules_mod_witness`, `C70_rules_mod_clash_witness` |
| `use pest::any as c`: generated code refers to `generics::c`, which does not exist | `C70_renamed_witness` |
| a rule parameter called like an imported file hides the module | `C70_parameter_witness` |
| `~(x) = x`: generated alias mentions an undeclared parameter | `C70_trivia_witness` |
| the derive macro declares `no_getter` and `box_rules_only_if_needed`, which it does not read, and `no_span` and `no_warnings`, which nothing uses | `C71_ignored`, `C71_boxed`, `C71_unused_witness` |
| the derive macro reads `box_all_rules`, which it does not declare; set, rules are not boxed | `C71_inverted_witness` |
| a rule, parameter or imported file called `_`, `self`, `Self`, `super` or `crate` makes the generator panic | `C72_rule_witness`, `C72_panics` |
| a file imported under the name of a keyword gives code that is not Rust | `C72_import_witness` |
| messages say that `&` was expected where `-` is meant | `C73_sequence_witness` |
| the lines of documentation comments lose their indentation (lists in lists, code) | `C74_indentation_witness` |
| a line of slashes only is documentation of the next rule | `C74_slashes_witness` |
| documentation of the trivia rules `~` and `^` is lost | `C74_trivia_witness` |
| the span of `(a)*` is `a)*`: it begins within the parentheses and ends after them | `C77_paren_witness` |
| the span of a name reaches over blanks and comments after it, up to the next rule | `C77_trailing_witness` |
| whether tokens inside a silent rule appear in the token tree depends on whether the rule has parameters, and for those with parameters on whether the module is the top module or imported | `C82_inside` |
| an error can name nothing: `y = x - "c"` with `x = "a"` rejects `ab` with the message `^---` at offset 0 (a rule that tried another rule is not reported itself) | `C88_silent_witness` |
| the work can double with every character: `x = "(" - x - "a" \| "(" - x - "b" \| ""` tries rules 2^(n+1) times on n parentheses | `C89_exponential_witness` |
| read as a context-free grammar, `x = "a" \| "ab"` generates `ab`; the parser rejects it | `C90_order_witness` |
| the variant of `skip_until` for the undeclared feature `memchr` finds an empty string at the end; with `["a", "b", ""]` it skips `x` in front of `a` (a negation is missing) | `C91_end_witness`, `C91_three_witness` |
| the (unused) state builder emits machines that never go back: `(a ~ b) \| (a ~ c)` rejects `ac`, and `(a ~ b)*` takes a lone `a` | `C92_choice_witness`, `C92_item_witness` |
| the (unused) state builder compares little-endian bytes with code points, so a range such as `'é'..'é'` rejects every character it names, and one such as `'ѐ'..'ѐ'` takes the letter `P` followed by U+0004 | `C92_range_witness`, `C92_control_witness` |
| imports of a grammar in the attribute are looked up beside the directory of the package, not in it, if that directory is called `….pest` | `C101_directory_witness` |
| `derive/tests/json.pest` rejects `[1,2 ,3]`: in `("," ~ value)*` there is no trivia before the second and further commas | `C93_comma_witness` |
| `derive/tests/json.pest` rejects `"\u00e9"`: `ascii_hex_digit` has no small letters | `C93_escape_witness` |
| `derive/tests/json.pest` accepts `1. 5`, which is not JSON | `C93_gap_witness` |
| `derive/tests/json.pest` accepts control characters in strings, which RFC 8259 forbids | `C93_control_witness` |
| `derive/tests/calc.pest` rejects `1 + 2! + 3`: in `(infix ~ prefix* ~ primary ~ postfix* )*` there is no trivia before the second and further operators, and none is left over after `!` | `C94_room_witness` |
| `derive/tests/calc.pest` rejects `- -1` and `1! !`: `prefix*` and `postfix*` have no trivia between items | `C94_signs_witness`, `C94_marks_witness` |
| calling a built-in without arguments, `pest::any()`, panics in the generator | example `callAny` in `Props/Scoping` |

Noticed while reading, not proved: the documentation of `PeekSlice` gives the opposite order of matching; `Pair` documentation speaks of code points where bytes
are meant; rules called `self`, `Self`, `super` or `crate` make the generator panic (`r#self` is not an identifier), files imported
under a keyword give code that does not compile (`format_ident!("{name}")`, `generator.rs:618`); `display_position` prints nothing at the end of input; a rule called `pest` cannot be referred to;
duplicate trivia rules: the last wins silently; `unescape` accepts `\x+1`; errors in imported files panic instead of being returned.

## 6. Mutation log

`seeded/LOG.jsonl` has one line per wrong program tried. `failed_lemmas` are the theorems at which Lean reported an error in the
edited copy. `failed_theorems` are the property theorems that failed themselves or whose proof uses one of the failed lemmas
(computed from the dependencies of the unedited proofs). A property theorem listed only through a lemma is one whose *proof* broke; that its statement is
false for the edited model was not checked separately. `survived` means that everything still built.

## 7. Axioms per theorem

<!-- axioms -->

**no axioms**: `C32_comp`, `C32_id`, `C32_shape`, `C56_cmp_panics`, `C56_ord_eq_mismatch`, `C66_value_iff`, `C93_rfc_partial`

**propext**: `C10_merge_comm`, `C31_push_differs`, `C31_rule`, `C31_vec_children`, `C32_labels`, `C32_super_rule`, `C32_unique`, `C42_pound_witness`, `C42_raw_string_partial`, `C45_call_witness`, `C62_error`, `C62_written`, `C66_distinct`, `C66_value`, `C67_path`, `C69_bounded_witness`, `C69_predicate_witness`, `C76_parsed`, `C83_none`, `C83_plain`, `C83_total`, `C83_unique`, `C91_three_witness`, `C95_rows`

**Quot.sound, propext**: `C04_fold_is_ascii`, `C15_distinct`, `C17_deterministic`, `C17_stable`, `C36_shown`, `C40_empty`, `C41_functional`, `C41_import_path`, `C44_satisfiable`, `C45_eliminated_partial`, `C45_exactly_partial`, `C45_replace_partial`, `C45_untouched`, `C46_rules`, `C47_joined`, `C55_accepts`, `C56_cmp_trans`, `C56_equivalence`, `C56_other_input`, `C56_span_equivalence`, `C56_span_other_input`, `C58_pop_span_not_matched`, `C66_get_rule`, `C71_root`, `C74_joined`, `C81_ranks`, `C83_neat`, `C84_sources`, `C91_end_witness`, `C92_build`, `C93_control_witness`, `C99_records`

**Classical.choice, Quot.sound, propext**: `C01_byte_test`, `C01_position_new`, `C01_span_new`, `C02_cursor_history`, `C02_cursor_op`, `C03_match_string`, `C04_match_insensitive`, `C05_match_char_by`, `C05_match_range`, `C05_next_char`, `C06_back_then_skip`, `C06_skip`, `C06_skip_back`, `C06_skip_then_back`, `C07_line_col`, `C08_line_of`, `C08_line_of_col`, `C09_as_str`, `C09_get`, `C09_split`, `C10_merge`, `C11_extra_line_witness`, `C11_iterator_exhausted`, `C11_lines_of_span`, `C11_lines_partition`, `C12_empty_input_witness`, `C12_position`, `C12_span_partial`, `C12_written`, `C13_line_numbers_partial`, `C13_line_witness`, `C13_marked_text`, `C13_position`, `C13_rows`, `C13_span`, `C14_digits`, `C14_gutter`, `C15_visualize`, `C16_described`, `C16_diverges_iff`, `C16_failure_iff`, `C16_recognise_iff`, `C16_success_iff`, `C16_try_parse_prefix`, `C17_runs_agree`, `C17_spec`, `C18_accept_iff`, `C18_check`, `C18_check_prefix`, `C18_diverge_iff`, `C18_reject_iff`, `C19_error_iff`, `C19_try_parse_iff`, `C20_forward`, `C21_entry_points`, `C21_no_panic`, `C22_choice_fails_iff`, `C22_choice_iff`, `C23_sequence_fails_iff`, `C23_sequence_iff`, `C23_sequence_text`, `C24_repetition_fails_iff`, `C24_repetition_iff`, `C25_optional_iff`, `C25_optional_never_fails`, `C26_negative_fails_iff`, `C26_negative_iff`, `C26_positive_fails_iff`, `C26_positive_iff`, `C26_stack_restored`, `C27_balanced`, `C28_drop`, `C28_empty`, `C28_peek`, `C28_peek_all`, `C28_pop`, `C28_pop_all`, `C28_push_fails_iff`, `C28_push_iff`, `C28_slice`, `C28_slice_open`, `C29_rule_span`, `C30_nested`, `C30_pair_tree`, `C31_emits`, `C33_events_exist`, `C33_furthest`, `C33_furthest_check`, `C33_try_parse`, `C34_listed`, `C34_try_parse`, `C35_independent`, `C35_independent_failure`, `C35_restored`, `C36_after_parse`, `C36_collect`, `C36_try_parse`, `C37_fails_iff`, `C37_moved`, `C37_prepend`, `C37_prepend_fails`, `C37_prepend_returns_iff`, `C38_entry_points`, `C38_left_recursion`, `C38_returns_iff`, `C38_terminates`, `C39_consuming_bound`, `C39_unbounded`, `C40_agrees`, `C40_never_fails`, `C40_no_panic`, `C40_parse_prefix`, `C41_code`, `C41_round_trip`, `C41_round_trip_minimal`, `C41_spelling`, `C41_string`, `C41_unicode`, `C43_bad_escape`, `C43_every_character`, `C43_quote_witness`, `C43_range_partial`, `C44_exact`, `C44_repeat`, `C44_slice`, `C46_arity`, `C46_call_partial`, `C46_capture`, `C46_generated_partial`, `C46_meaning_partial`, `C46_moved_body`, `C46_nested_argument`, `C46_other_module`, `C46_recursion`, `C46_terminates_partial`, `C46_unused_parameter`, `C47_dependencies`, `C47_import`, `C47_module`, `C47_nested_incomplete`, `C47_parsed_once`, `C48_acyclic_iff`, `C48_cyclic`, `C48_cyclic_diverges`, `C48_error_source`, `C48_loads_iff`, `C49_cycles_boxed`, `C49_finite_size`, `C49_generated`, `C50_acyclic`, `C50_generated`, `C50_minimal`, `C51_collected`, `C51_undefined_trivia`, `C52_cyclic_trivia`, `C52_exists`, `C52_instance`, `C52_renamed_builtin`, `C52_rule`, `C52_trivia`, `C52_try_parse`, `C53_accessors`, `C53_answer_rule`, `C53_no_getter`, `C53_value`, `C54_definitions`, `C54_grammar`, `C54_same_iff`, `C55_grammar`, `C55_insert`, `C55_resolve_history`, `C56_cmp`, `C56_span_eq`, `C57_skip_until`, `C58_captured_partial`, `C59_default_path`, `C59_derive`, `C59_explicit`, `C59_extension`, `C59_injective`, `C59_other_extension`, `C59_super_alone`, `C60_message`, `C60_try_parse`, `C61_accepts`, `C61_rejects`, `C61_terminates`, `C62_position_text`, `C62_span_text`, `C63_reads`, `C63_sequence_before_choice`, `C63_to_the_right`, `C63_total`, `C63_unambiguous`, `C64_every_expression`, `C64_import`, `C64_no_other`, `C64_rule`, `C65_deterministic`, `C65_exists`, `C65_rule`, `C65_silent`, `C65_total`, `C65_try_parse`, `C65_try_parse_prefix`, `C66_clash`, `C66_items_partial`, `C66_parameters_clash`, `C66_variants_partial`, `C67_accepted`, `C67_as_witness`, `C67_decided`, `C67_default_path`, `C67_has_rule`, `C67_import_args_witness`, `C67_import_slice`, `C67_items`, `C67_names`, `C67_no_panic`, `C67_operator_rule_witness`, `C67_quote_witness`, `C67_slashes_witness`, `C67_trivia_choice_witness`, `C67_unique`, `C67_use_tab_witness`, `C67_world`, `C68_bar_witness`, `C68_every_grammar`, `C68_expression`, `C68_leading_gap`, `C68_notation`, `C68_precedence`, `C68_unambiguous`, `C68_underscore_witness`, `C69_bounded_string_witness`, `C69_different_partial`, `C69_documentation_partial`, `C69_insensitive_witness`, `C69_notation_partial`, `C69_quote_witness`, `C69_reads_partial`, `C70_closed_partial`, `C70_distinct`, `C70_imports`, `C70_parameter_witness`, `C70_renamed_witness`, `C70_rules_mod_clash_witness`, `C70_rules_mod_witness`, `C70_trivia_witness`, `C71_attributes`, `C71_boxed`, `C71_file`, `C71_ignored`, `C71_inverted_witness`, `C71_loads`, `C71_order`, `C71_result_partial`, `C71_succeeds`, `C71_unused_witness`, `C72_identifiers_partial`, `C72_import_witness`, `C72_needed`, `C72_panics`, `C72_rule_witness`, `C72_words`, `C73_accepted_partial`, `C73_distinct_partial`, `C73_named`, `C73_quoted_partial`, `C73_sequence_witness`, `C73_silent`, `C74_every_text`, `C74_indentation_witness`, `C74_names`, `C74_place_witness`, `C74_slashes_witness`, `C74_trivia_witness`, `C74_unambiguous`, `C74_unique`, `C74_variants`, `C74_written`, `C75_accepted`, `C75_parser`, `C75_text`, `C76_determines`, `C76_prefix`, `C77_erase`, `C77_file`, `C77_items`, `C77_order`, `C77_paren_witness`, `C77_parts`, `C77_rule`, `C77_trailing_witness`, `C77_unique`, `C78_fault`, `C78_item`, `C78_shown`, `C79_bounds`, `C79_caseless`, `C79_choice_assoc`, `C79_choice_comm_witness`, `C79_congruence`, `C79_dead`, `C79_factor`, `C79_factor_right_witness`, `C79_grammar`, `C79_guard`, `C79_neg_neg_witness`, `C79_nothing`, `C79_one`, `C79_opt`, `C79_parser`, `C79_predicates`, `C79_prefix`, `C79_range`, `C79_seq_assoc`, `C79_split`, `C79_tokens`, `C79_unfold`, `C79_unfold_witness`, `C79_unroll`, `C79_unroll_witness`, `C80_exclusive`, `C80_forever`, `C80_loop`, `C80_parser`, `C80_total`, `C81_deterministic`, `C81_exists`, `C81_parser`, `C81_rejects`, `C81_rule`, `C81_total`, `C81_try_parse`, `C82_accepted`, `C82_errors`, `C82_generated`, `C82_inside`, `C82_messages`, `C82_parser`, `C82_text`, `C82_tokens_unique`, `C82_total`, `C82_trivia`, `C83_type`, `C83_value`, `C84_exists`, `C84_extension`, `C84_extension_grammar`, `C84_grammar`, `C84_import`, `C84_import_grammar`, `C84_parser`, `C84_renaming`, `C84_renaming_grammar`, `C85_apart`, `C85_apart_witness`, `C85_first`, `C85_grammar`, `C85_parser`, `C85_reject`, `C85_reorder`, `C85_returns`, `C85_returns_witness`, `C86_again`, `C86_errors`, `C86_parser`, `C86_place`, `C86_soi_witness`, `C86_stack`, `C86_stack_witness`, `C86_tokens`, `C86_unused`, `C87_assoc`, `C87_bounds`, `C87_comparisons`, `C87_congruence`, `C87_dead`, `C87_dead_witness`, `C87_error`, `C87_factor`, `C87_grammar`, `C87_guard_witness`, `C87_literals`, `C87_named`, `C87_neg_neg_witness`, `C87_neg_pos_witness`, `C87_nothing`, `C87_opt`, `C87_predicates`, `C87_strings`, `C87_unfold_witness`, `C87_unroll`, `C88_expected`, `C88_grammar`, `C88_mute`, `C88_silent_witness`, `C89_counter`, `C89_exponential_witness`, `C89_linear`, `C89_parser`, `C89_same`, `C90_blanks`, `C90_blanks_end`, `C90_blanks_language`, `C90_blanks_parser`, `C90_complete`, `C90_context_free`, `C90_language`, `C90_list`, `C90_nested`, `C90_next`, `C90_only`, `C90_order_witness`, `C90_parser`, `C90_sound`, `C90_unique`, `C91_same_partial`, `C92_choice_witness`, `C92_control_witness`, `C92_grammar_partial`, `C92_halts`, `C92_item_witness`, `C92_loop`, `C92_methods`, `C92_parse`, `C92_range_witness`, `C92_wide`, `C93_comma_witness`, `C93_escape_witness`, `C93_files`, `C93_gap_witness`, `C93_parser`, `C94_files`, `C94_free_partial`, `C94_marks_witness`, `C94_parser`, `C94_room_witness`, `C94_signs_witness`, `C95_grammar`, `C95_parser`, `C96_grammars`, `C96_reader`, `C96_skip`, `C97_file`, `C97_stack`, `C98_languages`, `C99_grammar`, `C99_parser`, `C100_grammars`, `C100_issue`, `C100_sequences`, `C101_directory_witness`, `C101_grammar`, `C101_parser`, `C102_custom`, `C102_grammars`, `C102_place`, `C102_usual`
