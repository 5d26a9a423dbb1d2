{"id": "C01", "title": "Position::new accepts exactly the character boundaries", "statement": "Position::new(s, i) returns Some exactly when i is the total UTF-8 length of some prefix of the characters of s, i.e. when s can be cut at i without splitting a character. Span::new(s, a, b) returns Some exactly when a <= b and both are such boundaries.", "quantifier": "every string s (any Unicode text) and every index i, a, b", "why_tests_cant": "boundaries depend on the UTF-8 encoding of every possible character; tests sample a few strings", "anchors": ["core/src/position.rs: Position::new", "core/src/span.rs: Span::new, Span::get"]}
{"id": "C02", "title": "Cursor operations never leave character boundaries and never panic", "statement": "Starting from a position obtained from Position::new, each of skip, skip_back, skip_until, next_char, match_char, match_char_by, match_string, match_insensitive, match_range returns normally and leaves the cursor on a character boundary of the same input, at most the input length; when one of the matching operations reports no match the cursor is unchanged.", "quantifier": "every input, every valid position, every argument of every cursor operation", "why_tests_cant": "a byte-wise compare or a wrong length could split a multi-byte character only on particular text", "anchors": ["core/src/position.rs: Position::{skip, skip_back, skip_until_basic, next_char, match_char, match_char_by, match_string, match_insensitive, match_range}"]}
{"id": "C03", "title": "Literal matching is exactly prefix matching", "statement": "A literal (Str, match_string) matches at a position if and only if the remaining text starts with the literal, character for character; it then consumes exactly the literal's bytes, and otherwise consumes nothing.", "quantifier": "every input, every valid position, every literal (including empty and multi-byte)", "why_tests_cant": "the implementation compares raw bytes; equality with character-level prefix needs the UTF-8 prefix property for all text", "anchors": ["core/src/position.rs: match_string", "core/src/typed/template/mod.rs: Str"]}
{"id": "C04", "title": "Case-insensitive literal matching", "statement": "An insensitive literal matches at a position iff the remaining text starts with a string that has the same characters up to ASCII case; it consumes exactly that string and the node's content is that very slice of the input (original case preserved).", "quantifier": "every input, position and literal", "why_tests_cant": "ranges over all texts and the byte-length/char-boundary interplay", "anchors": ["core/src/position.rs: match_insensitive", "core/src/typed/template/mod.rs: Insens"]}
{"id": "C05", "title": "Character matching", "statement": "CharRange<MIN,MAX> matches iff the next character c exists and MIN <= c <= MAX (both ends inclusive); ANY matches iff there is a next character; a single-character or Unicode-property node matches iff the next character satisfies it. Each consumes exactly that one character and stores it.", "quantifier": "every input, position, range, predicate", "why_tests_cant": "all of Unicode and all ranges", "anchors": ["core/src/position.rs: match_range, match_char_by, next_char", "core/src/typed/template/mod.rs: CharRange, Char, any, match_char_by", "core/src/typed/unicode.rs"]}
{"id": "C06", "title": "skip and skip_back count characters and are inverse", "statement": "skip(n) succeeds iff at least n characters remain and then advances over exactly n characters; skip_back(n) succeeds iff at least n characters precede and moves back over exactly n; after a successful skip(n), skip_back(n) returns to the same position and vice versa; on failure nothing moves. SkipChar<N> yields the span of exactly N characters.", "quantifier": "every input, position, n", "why_tests_cant": "multi-byte widths and all counts", "anchors": ["core/src/position.rs: skip, skip_back", "core/src/typed/template/mod.rs: SkipChar"]}
{"id": "C07", "title": "line_col is the editor line and column", "statement": "For a valid position, line_col never panics and returns line = 1 + number of newline characters before the position, and column = 1 + number of characters between the last newline (or start) and the position.", "quantifier": "every input text (any mix of CR, LF, CRLF, multi-byte) and every valid position", "why_tests_cant": "the loop has three interacting branches for CR, CRLF and LF, with an unreachable! that must be shown unreachable for all text", "anchors": ["core/src/position.rs: line_col"]}
{"id": "C08", "title": "line_of returns the line containing the position", "statement": "For a valid position, line_of never panics and returns the maximal piece of text around the position that contains no newline except possibly as its last character; consequently line_of followed by column-1 characters leads back to the position.", "quantifier": "every input and valid position", "why_tests_cant": "depends on where newlines are relative to the position for all texts", "anchors": ["core/src/position.rs: line_of, find_line_start, find_line_end"]}
{"id": "C09", "title": "Span text and splitting", "statement": "A valid span's as_str is the text between its ends, of byte length end - start; split returns its two valid end positions and start.span(end) rebuilds the span; Span::get(range) returns Some exactly when the bounds lie on boundaries inside the span's own text, and then denotes exactly that sub-text of the original input.", "quantifier": "every input, span and range bounds", "why_tests_cant": "all boundaries, all range kinds", "anchors": ["core/src/span.rs: Span::new, get, start_pos, end_pos, split, as_str", "core/src/position.rs: Position::span"]}
{"id": "C10", "title": "merge_spans computes the union or refuses", "statement": "merge_spans(a, b) on spans of one input returns Some iff the spans overlap or touch, and then the result covers exactly the offsets covered by a or b; it is commutative and never panics.", "quantifier": "every input, every pair of valid spans", "why_tests_cant": "case analysis over all relative placements", "anchors": ["core/src/span.rs: merge_spans"]}
{"id": "C11", "title": "Span::lines enumerates lines without loss", "statement": "Iterating lines_span over the whole text yields consecutive, non-overlapping spans whose concatenation is the text, each containing at most one newline, only at its end. For an arbitrary span the iterator terminates and yields exactly the lines of the text that start at or before the span's end, beginning with the line containing the span's start.", "quantifier": "every input and span", "why_tests_cant": "termination and coverage over all texts", "anchors": ["core/src/span.rs: LinesSpan::next, Lines::next, lines, lines_span"]}
{"id": "C12", "title": "Displaying a span or position does not panic", "statement": "Formatting a span (Display / display) of any input never panics; formatting a position never panics.", "quantifier": "every input, every valid span/position", "why_tests_cant": "edge cases at empty input, line ends and end of input", "anchors": ["core/src/formatter.rs: FormatOption::display_span, display_position, display_snippet"]}
{"id": "C13", "title": "Displayed snippet marks the right text", "statement": "The text parts printed by span display reproduce, in order and without loss, the text of the lines shown: before-part + marked part + after-part equals the line(s), the marked part of a one-line span equals the span's text, and the line numbers printed are the lines of the span's ends.", "quantifier": "every non-empty input and span", "why_tests_cant": "all alignments of spans with line ends", "anchors": ["core/src/formatter.rs: Partition, Partition2, display_span, display_position"]}
{"id": "C14", "title": "Line number gutter is wide enough", "statement": "The gutter width used for snippets is the number of decimal digits of the largest line number shown, so every printed line number fits.", "quantifier": "every pair of line numbers", "why_tests_cant": "unbounded numbers; off-by-one at powers of ten", "anchors": ["core/src/formatter.rs: ceil_log10, display_snippet"]}
{"id": "C15", "title": "Control characters are made visible one for one", "statement": "Visualisation of snippet text outputs exactly one visible character per input character, changes only control characters, newline and carriage return, and never outputs an ASCII control character.", "quantifier": "every string", "why_tests_cant": "all of Unicode", "anchors": ["core/src/formatter.rs: visualize_ws_and_cntrl"]}
{"id": "C16", "title": "The generated recogniser implements PEG semantics", "statement": "For every grammar, expression, input and position, try_parse_with_partial succeeds with a given remaining position, tree and stack iff the declarative PEG semantics (ordered choice, greedy repetition, lookahead, the span stack with failed alternatives having no effect) derives exactly that; it fails iff the PEG semantics derives failure; it runs forever iff neither is derivable.", "quantifier": "every grammar (any rule graph, mutual recursion included), every input, start position and initial stack", "why_tests_cant": "infinitely many grammars and inputs, with mutable state threaded through backtracking", "anchors": ["core/src/typed/template/mod.rs: all TypedNode impls", "core/src/typed/template/repetition.rs: RepMinMax", "core/src/choice.rs: choice_type!", "core/src/sequence.rs: sequence_type!", "core/src/typed/traits.rs: full_rule_struct!, TypedNode for Option"]}
{"id": "C17", "title": "Parsing is deterministic and stable", "statement": "For a given grammar, input, position and stack there is at most one outcome, and an outcome once reached is independent of how much computation is allowed.", "quantifier": "every grammar, input, state", "why_tests_cant": "quantifies over all executions", "anchors": ["core/src/typed/traits.rs: TypedNode::try_parse_with_partial"]}
{"id": "C18", "title": "check and parse agree", "statement": "check_with_partial accepts exactly when try_parse_with_partial does, with the same remaining position, the same stack afterwards and the same error-tracker contents; likewise check / try_parse and check_partial / try_parse_partial.", "quantifier": "every grammar, input, position, stack, tracker", "why_tests_cant": "two separately written implementations of each node must agree on all inputs", "anchors": ["core/src/typed/traits.rs: TypedNode", "core/src/typed/template/mod.rs: every try_parse_with_partial / check_with_partial pair", "core/src/typed/template/repetition.rs", "core/src/choice.rs", "core/src/sequence.rs"]}
{"id": "C19", "title": "try_parse accepts exactly full matches", "statement": "try_parse(s) is Ok(t) iff try_parse_partial(s) is Ok((p, t)) with p at the end of s; otherwise it is an Err; check(s) is true iff try_parse(s) is Ok.", "quantifier": "every grammar and input", "why_tests_cant": "all inputs", "anchors": ["core/src/typed/traits.rs: try_parse_with, try_parse, try_parse_partial, check_with, check, check_partial"]}
{"id": "C20", "title": "The cursor only moves forward and stays inside the input", "statement": "If parsing succeeds from a valid position, the returned position is valid, in the same input, and not before the start position.", "quantifier": "every grammar, input, position, stack", "why_tests_cant": "all grammars; relies on every node type", "anchors": ["core/src/typed/template/mod.rs", "core/src/typed/template/repetition.rs", "core/src/choice.rs", "core/src/sequence.rs"]}
{"id": "C21", "title": "Parsing never panics", "statement": "Parsing or checking from a valid position with a fresh stack and tracker for that input never panics, whatever the grammar.", "quantifier": "every grammar, input, valid position", "why_tests_cant": "slicing, span construction, stack slicing and position comparison all contain panics that must be unreachable", "anchors": ["core/src/typed/template/mod.rs: peek_spans, stack_slice", "core/src/position.rs: span, cmp", "core/src/typed/tracker.rs: prepare, record"]}
{"id": "C22", "title": "Ordered choice takes the first matching alternative", "statement": "A choice succeeds iff some alternative succeeds from the same position and stack; the result is that of the first such alternative, as if the earlier alternatives had never been tried.", "quantifier": "every list of alternatives (any number), input, position, stack", "why_tests_cant": "unbounded number of alternatives and stack effects of failed ones", "anchors": ["core/src/choice.rs: choice_type!"]}
{"id": "C23", "title": "Sequence concatenates, trivia only in between", "statement": "A sequence succeeds iff its elements match one after the other with exactly one trivia match between each two neighbours (none before the first or after the last); its span is the concatenation of those spans.", "quantifier": "every list of elements, trivia, input, position, stack", "why_tests_cant": "unbounded arity", "anchors": ["core/src/sequence.rs: sequence_type!"]}
{"id": "C24", "title": "Repetition is greedy and respects its bounds", "statement": "RepMinMax<T, TRIVIA, MIN, MAX> with MIN <= MAX succeeds iff at least MIN iterations match; the number n of stored items satisfies MIN <= n <= MAX, and either n = MAX or a further iteration fails at the end position; trivia matched before a failing iteration is not consumed and stack effects of the failing iteration are undone.", "quantifier": "every inner expression, trivia, bounds, input, position, stack", "why_tests_cant": "unbounded iteration", "anchors": ["core/src/typed/template/repetition.rs: RepMinMax, Rep, RepOnce, RepMin, RepMax"]}
{"id": "C25", "title": "Optional never fails and hides failed attempts", "statement": "Option<T> always succeeds; if T matches it equals T's result, otherwise it consumes nothing and leaves the stack as it was.", "quantifier": "every T, input, position, stack", "why_tests_cant": "all T including stack-mutating ones", "anchors": ["core/src/typed/traits.rs: TypedNode for Option<T>"]}
{"id": "C26", "title": "Lookahead has no effect on cursor or stack", "statement": "Positive and Negative lookahead never move the cursor and always leave the stack exactly as before; Positive succeeds iff the inner expression does, Negative succeeds iff it fails.", "quantifier": "every inner expression, input, position, stack", "why_tests_cant": "all inner expressions incl. nested push/pop", "anchors": ["core/src/typed/template/mod.rs: Positive, Negative"]}
{"id": "C27", "title": "Snapshots are balanced", "statement": "Every parse or check leaves the number of outstanding stack snapshots unchanged and, after undoing, the enclosing snapshots still denote the same saved stacks - on success and on failure.", "quantifier": "every grammar, input, position, stack with any number of enclosing snapshots", "why_tests_cant": "every control-flow path of every node", "anchors": ["core/src/typed/template/mod.rs: restore_on_none, Positive, Negative", "core/src/choice.rs", "core/src/typed/traits.rs: TypedNode for Option<T>", "core/src/typed/template/repetition.rs"]}
{"id": "C28", "title": "Stack expressions have their documented meaning", "statement": "PUSH(e) pushes exactly the span e consumed; PEEK matches the text on top; POP matches and removes the top; DROP removes the top and consumes nothing; PEEK_ALL/POP_ALL match all entries from top to bottom (POP_ALL then leaves the stack empty); PEEK[a..b] matches the selected entries from bottom to top, negative indices counting from the top, out-of-range indices failing; on an empty stack PEEK, POP, DROP fail.", "quantifier": "every stack content, input, position, slice bounds", "why_tests_cant": "all stacks and all (signed) indices", "anchors": ["core/src/typed/template/mod.rs: peek, pop, drop, peek_all, pop_all, push, PeekSlice1, PeekSlice2, constrain_idx, constrain_idxs, stack_slice, peek_spans"]}
{"id": "C29", "title": "A rule's span is exactly the text it consumed", "statement": "A rule node's span starts where the rule was tried and ends where the remaining input starts.", "quantifier": "every rule of every grammar, every input", "why_tests_cant": "all grammars", "anchors": ["core/src/typed/traits.rs: full_rule_struct!"]}
{"id": "C30", "title": "Pairs form a well nested, ordered token tree", "statement": "In the token tree obtained from a parsed rule, every pair lies within its parent's range, siblings are in source order and do not overlap, and all offsets are character boundaries of the input.", "quantifier": "every grammar, every successful parse", "why_tests_cant": "all parse trees of all grammars", "anchors": ["core/src/typed/traits.rs: PairContainer, PairTree", "core/src/token/mod.rs: Pair", "core/src/typed/template/repetition.rs", "core/src/choice.rs", "core/src/sequence.rs"]}
{"id": "C31", "title": "Which rules produce pairs", "statement": "A non-silent rule yields exactly one pair carrying its rule and span whose children are the pairs of its content in order; silent rules and lookahead yield none; a choice yields those of the chosen alternative, a sequence or repetition the concatenation.", "quantifier": "every grammar, every parse tree", "why_tests_cant": "all trees", "anchors": ["generator/src/typed/generator.rs: create_rule", "core/src/typed/traits.rs: PairContainer", "core/src/typed/template/mod.rs: Positive"]}
{"id": "C32", "title": "Token conversion is structure preserving", "statement": "Pair::convert changes only rule labels: same spans, same shape; converting by the identity is the identity and by a composition is the composition of conversions.", "quantifier": "every pair tree and every label map", "why_tests_cant": "unbounded trees, all functions", "anchors": ["core/src/token/mod.rs: Pair::convert"]}
{"id": "C33", "title": "The error position is the furthest attempt", "statement": "After any parse, the tracker's reported position is the furthest position at which some rule (or stack operation) reported a result, never before the start; it is a valid position of the input.", "quantifier": "every grammar, input", "why_tests_cant": "all executions", "anchors": ["core/src/typed/tracker.rs: Tracker::prepare, record, record_option_during_with, finish"]}
{"id": "C34", "title": "Expected / unexpected lists are the attempts at the error position", "statement": "The rules reported as expected (unexpected) are precisely the rules without reporting sub-rules that failed (succeeded) outside (inside) a negative lookahead at the furthest position, grouped by the innermost enclosing rule that started elsewhere; attempts elsewhere leave no trace.", "quantifier": "every sequence of parser events", "why_tests_cant": "all histories of attempts", "anchors": ["core/src/typed/tracker.rs: record, same_with_last, get_entry, during, positive_during, negative_during"]}
{"id": "C35", "title": "Error tracking does not influence parsing", "statement": "The outcome (success, position, tree, stack) of parsing does not depend on the tracker passed in; on return the tracker's mode flag and rule stack are what they were.", "quantifier": "every grammar, input, state and any two trackers over the same input", "why_tests_cant": "all histories", "anchors": ["core/src/typed/tracker.rs: Tracker", "core/src/typed/traits.rs: TypedNode"]}
{"id": "C36", "title": "Rendering an error never panics", "statement": "Collecting the tracker of any finished parse into an error (or message) never panics; the error location is the tracker's position.", "quantifier": "every grammar, input, outcome", "why_tests_cant": "all trackers reachable by parsing", "anchors": ["core/src/typed/tracker.rs: collect_to_message, collect"]}
{"id": "C37", "title": "No look-behind", "statement": "Parsing from a position depends only on the text from that position on, the stack and (for SOI) on being at the very start: in an SOI-free grammar, prepending text shifts all resulting offsets by the length of the prepended text and changes nothing else.", "quantifier": "every SOI-free grammar, every two texts", "why_tests_cant": "metamorphic relation over all inputs", "anchors": ["core/src/typed/template/mod.rs", "core/src/position.rs"]}
{"id": "C38", "title": "Left recursion never returns", "statement": "If evaluating a rule requires evaluating the same rule at the same position and stack, parsing does not produce a result (stack overflow in practice); conversely grammars with a well-founded reference order that repeat only consuming expressions always terminate.", "quantifier": "every grammar satisfying the respective condition, every input", "why_tests_cant": "non-termination cannot be observed by a test; termination on all inputs neither", "anchors": ["core/src/typed/traits.rs: full_rule_struct!", "core/src/typed/template/repetition.rs", "generator/src/typed/generator.rs"]}
{"id": "C39", "title": "Repeating a non-consuming expression is unbounded", "statement": "If an expression always succeeds without consuming at a position, repeating it (e*) there performs MAX = usize::MAX iterations: the result has MAX items, no earlier exit exists.", "quantifier": "every expression succeeding without consuming, every bound MAX", "why_tests_cant": "would take 2^64 iterations to observe", "anchors": ["core/src/typed/template/repetition.rs: RepMinMax"]}
{"id": "C40", "title": "parse_with_partial of never-failing nodes agrees with try_parse", "statement": "For nodes that cannot fail (e*), the infallible entry point returns the same position, tree and stack as the fallible one, which always succeeds.", "quantifier": "every e*, input, position, stack", "why_tests_cant": "a second implementation of the same loop", "anchors": ["core/src/typed/template/repetition.rs: NeverFailedTypedNode for RepMinMax", "core/src/typed/traits.rs: NeverFailedTypedNode"]}
{"id": "C41", "title": "String escapes round-trip", "statement": "For every text there is a literal spelling it: unescaping the quoted, escaped spelling of any string yields that string; \\xHH and \\u{...} denote the stated code points and are rejected exactly when they are not ASCII resp. not Unicode scalar values.", "quantifier": "every string", "why_tests_cant": "all Unicode strings", "anchors": ["meta/src/parser.rs: unescape, string_content, parse_string"]}
{"id": "C42", "title": "Raw strings denote their content", "statement": "A raw string literal r\"...\" or r#\"...\"# denotes exactly the text between its delimiters.", "quantifier": "every raw string content and number of #", "why_tests_cant": "all contents", "anchors": ["meta/src/parser.rs: parse_raw_string", "meta/src/grammar.pest: raw_string"]}
{"id": "C43", "title": "Character ranges in grammars", "statement": "'a'..'b' denotes the inclusive range between the two (possibly escaped) characters, for every pair of characters.", "quantifier": "every pair of characters", "why_tests_cant": "all characters", "anchors": ["meta/src/parser.rs: parse_char_range, unescape"]}
{"id": "C44", "title": "Accepted bounded repeats are satisfiable", "statement": "Every accepted bounded repetition e{..} has a lower bound not exceeding its upper bound and an upper bound greater than zero, and denotes the written bounds; contradictory or empty ones are rejected. A slice [..] denotes the signed integers written, or is rejected if one does not fit.", "quantifier": "every pair of optional bounds", "why_tests_cant": "all numbers", "anchors": ["meta/src/parser.rs: parse_bounded_repeat, parse_range, parse_path_raw"]}
{"id": "C45", "title": "Substituting rule arguments", "statement": "Replacing a parameter by an argument replaces every occurrence of the parameter in the expression and nothing else, and reports whether there was one.", "quantifier": "every expression, parameter, argument", "why_tests_cant": "all expression trees", "anchors": ["meta/src/parser.rs: ParseExpr::replace"]}
{"id": "C46", "title": "Inlining silent rules preserves meaning", "statement": "A call to a silent rule with arguments is inlined as the rule's body with all parameters simultaneously replaced by the arguments.", "quantifier": "every grammar", "why_tests_cant": "all grammars, nested calls, name clashes", "anchors": ["generator/src/typed/generator.rs: collect_silent_rules_with_args, inline_silent_rules_with_args"]}
{"id": "C47", "title": "All imported files are dependencies", "statement": "After parsing a grammar file with (nested, possibly shared) imports, its dependency list contains exactly the files transitively imported, and each file is parsed once.", "quantifier": "every import graph without cycles", "why_tests_cant": "all import graphs", "anchors": ["meta/src/parser.rs: parse, _parse, GrammarModule"]}
{"id": "C48", "title": "Import cycles", "statement": "Importing is possible exactly for acyclic import graphs: a cyclic import never yields a module.", "quantifier": "every import graph", "why_tests_cant": "non-termination is not observable by tests", "anchors": ["meta/src/parser.rs: _parse"]}
{"id": "C49", "title": "Generated types are finite", "statement": "With boxing-only-if-needed, every cycle of rule references goes through a rule whose content is boxed, so no generated type has infinite size.", "quantifier": "every grammar (any reference graph)", "why_tests_cant": "all graphs", "anchors": ["generator/src/typed/generator.rs: collect_reachability, RuleInfo::new, create_rule"]}
{"id": "C50", "title": "Boxing is minimal", "statement": "With boxing-only-if-needed, a rule is boxed only if it lies on a cycle of rule references.", "quantifier": "every grammar", "why_tests_cant": "all graphs", "anchors": ["generator/src/typed/generator.rs: collect_reachability"]}
{"id": "C51", "title": "Rule reference collection is exact", "statement": "The collected rule references of an expression are exactly the single-segment rule names occurring in it (including inside call arguments), together with exactly whether the optional and whether the mandatory trivia operator occurs; generation is refused exactly if some rule uses a trivia operator whose trivia rule is not defined.", "quantifier": "every expression", "why_tests_cant": "all expressions", "anchors": ["generator/src/typed/generator.rs: collect_used_rule, collect_used_rule_without_trivia_into, collect_trivia"]}
{"id": "C52", "title": "Code generation preserves the grammar's meaning", "statement": "For a grammar whose names are unambiguous (no rule or import defined twice, none called pest, no single built-in imported under another name, parameters used without arguments) and whose trivia rules do not use their own operator, the struct generated for a rule recognises exactly what the written expression means, and try_parse accepts exactly the texts the expression matches: nested binary sequences/choices may be flattened, trivia is skipped exactly where ~ or ^ is written, repetition bounds, literals, predicates, stack slices, rule calls and rule arguments keep their meaning.", "quantifier": "every grammar with its imports, rule, input, position, stack", "why_tests_cant": "all expressions and inputs", "anchors": ["generator/src/typed/generator.rs: process_expr, process_rule, collect_sequence, collect_choices, get_trivia"]}
{"id": "C53", "title": "Accessors return all occurrences in order", "statement": "The accessor generated for rule r on a node returns references to exactly the occurrences of r written in the rule's expression that were matched, in source order, and its declared type matches what the accessor code returns.", "quantifier": "every expression and parse tree", "why_tests_cant": "all expression shapes", "anchors": ["generator/src/typed/getter.rs: Node::{wrap, merge, flattenable, expand}, GetterByName::join", "generator/src/typed/generator.rs: process_expr"]}
{"id": "C54", "title": "Literal wrappers are not confused", "statement": "Different string literals of a grammar get different wrapper types, the same literal always gets the same one, and the wrapper's content is that literal.", "quantifier": "every sequence of literals", "why_tests_cant": "all histories of insertions", "anchors": ["generator/src/typed/output.rs: Tracker::insert_string_wrapper"]}
{"id": "C55", "title": "Name resolution", "statement": "After any history of defining rules, importing modules and introducing aliases, a path resolves to the built-in of that full path if there is one, and otherwise to what its first name was introduced for (an alias resolves like the path it stands for). Introducing a name twice is reported as an error, other names keep their meaning, and a reference is accepted exactly if its arguments fit what it refers to.", "quantifier": "every history of insertions, every path, every list of arguments", "why_tests_cant": "all histories of insertions", "anchors": ["generator/src/typed/module.rs: ModuleNode, ModuleSystem::{resolve, insert, insert_rule, alias}"]}
{"id": "C56", "title": "Comparison operators of positions and spans are coherent", "statement": "Comparing two positions of the same input never panics, is a total order by offset, and agrees with equality. Equality of positions and of spans is an equivalence, distinguishes different inputs and different offsets, and equal values hash alike.", "quantifier": "every pair/triple of positions", "why_tests_cant": "all positions", "anchors": ["core/src/position.rs: PartialEq, Ord, PartialOrd, Hash for Position"]}
{"id": "C57", "title": "skip_until finds the first occurrence", "statement": "skip_until(strings) moves the cursor to the first character boundary (before the end of the input) at which one of the strings occurs and reports true; if there is none it moves to the end of the input and reports false.", "quantifier": "every input, valid position, list of strings", "why_tests_cant": "byte-wise scan over arbitrary multi-byte text", "anchors": ["core/src/position.rs: skip_until, skip_until_basic"]}
{"id": "C58", "title": "Leaf nodes capture what they matched", "statement": "A successfully parsed leaf node that stores text stores exactly the text it matched, one that stores a character stores that character, one that stores a newline kind stores the kind matched, and one that stores a span stores the range it matched.", "quantifier": "every leaf node, input, valid position and stack", "why_tests_cant": "all inputs, including text whose case differs from the literal and text matched through the stack", "anchors": ["core/src/typed/template/mod.rs: Insens, CharRange, SkipChar, PEEK, POP, PeekSlice2, NEWLINE", "core/src/typed/template/mod.rs: try_parse_with_partial"]}
{"id": "C59", "title": "Where imported grammar files are looked up", "statement": "`use a::b` in the grammar file dir/f.pest reads dir/a/b.pest, with `super` standing for the parent directory; different module paths without `super` are different files; a grammar file with extension pest named in the derive attribute looks its imports up in its own directory.", "quantifier": "every directory, file name and module path", "why_tests_cant": "all paths", "anchors": ["meta/src/parser.rs: mod_path_to_fs_path, _parse", "generator/src/typed/generator.rs: derive_typed_parser"]}
{"id": "C60", "title": "Error messages say what was attempted where", "statement": "The message of a parse error shows the number and the text of the line up to the error position with a marker, then for each enclosing rule one line naming exactly the rules tracked as expected and as unexpected there, in order and without repetition, and one line for each illegal stack access.", "quantifier": "every tracked history of attempts and every failing parse", "why_tests_cant": "all combinations of expected/unexpected/illegal entries, all inputs and positions", "anchors": ["core/src/typed/tracker.rs: collect_to_message, collect"]}
{"id": "C61", "title": "The generator accepts exactly the well-scoped grammars", "statement": "For a grammar with unambiguous names, code generation succeeds if and only if every reference names an existing rule, parameter or built-in and is used with as many arguments as it has parameters (only pest::stack::peek being sliced), every import of a built-in exists, no rule has the name of an import, and the trivia operators in use are defined; for every other grammar it panics, and it always comes to an end.", "quantifier": "every grammar with nested imports whose names are unambiguous, every configuration", "why_tests_cant": "all grammars; both directions", "anchors": ["generator/src/typed/generator.rs: process_expr, process_rule, process_rules", "generator/src/typed/module.rs: ModuleSystem::resolve, ModuleNode::get, alias, insert_rule", "generator/src/typed/generator.rs: collect_reachability"]}
{"id": "C62", "title": "Snippets are written piece by piece and stop at the first error", "statement": "Displaying a span or a position with user-supplied formatters hands every piece of the snippet to the formatter for its kind, in order; if a formatter or the writer fails, displaying fails there and nothing further is written, otherwise everything is written. to_string is the concatenation of the pieces.", "quantifier": "every formatter, writer, state of the writer, span and position", "why_tests_cant": "all writers that fail at any point; formatters with state", "anchors": ["core/src/formatter.rs: FormatOption, display_span, display_position", "core/src/span.rs: Display for Span", "core/src/position.rs: Display for Position"]}
{"id": "C63", "title": "Operators of grammar expressions bind as documented", "statement": "Every expression the grammar syntax admits is read without panicking and in finitely many steps: postfix operators apply first in the order written, then prefix operators from the inside, then the sequence operators -, ~ and ^ (all alike, grouping to the right), then choices (grouping to the right); a leading bar means nothing, parentheses override. The only failures are reported errors for literals and bounds that stand for nothing.", "quantifier": "every expression of the grammar syntax, without raw strings with # and unescaped double quotes in character ranges", "why_tests_cant": "unbounded nesting and combinations of operators", "anchors": ["meta/src/parser.rs: parse_node, parse_term, parse_prefix, parse_postfix, parse_path_raw, parse_rule", "meta/src/grammar.pest: expression, term"]}
{"id": "C64", "title": "Every expression can be written, and rules and imports are read as written", "statement": "Every grammar expression (with satisfiable, machine-sized bounds and slices, and separators only directly under a repetition) is the reading of some text of the grammar syntax, and nothing else is ever read. A rule is read with the name, parameters, silence and expression as written, with or without braces, parameters and documentation; an import with its path, file and alias.", "quantifier": "every expression, rule and import", "why_tests_cant": "all syntax trees, both directions", "anchors": ["meta/src/parser.rs: parse_rule, _parse, parse_node, parse_term, parse_path"]}
{"id": "C65", "title": "The tokens of a parse are the rule applications of the grammar", "statement": "Parsing with a rule of the generated parser and converting to a token tree gives one token for the rule over the text it matched, containing in order one token for every application of a rule that is not silent during the match, nested as the applications were nested; text matched by lookahead, by trivia and inside silent rules has none. The rule named by a token is the rule of the grammar that was applied, whichever module it is in.", "quantifier": "every grammar the generator accepts whose names are unambiguous and whose trivia rules do not use themselves, every rule without parameters, every input", "why_tests_cant": "all grammars, inputs and nestings, including parameterised rules and rules from imported modules", "anchors": ["generator/src/typed/generator.rs: rule, process_rule, get_rule", "generator/src/common.rs: generate_rule_enum", "core/src/typed/traits.rs: PairContainer, PairTree", "generator/src/typed/output.rs: Output::collect"]}
{"id": "C66", "title": "Generated definitions have different names", "statement": "For every grammar the generator accepts, the variants of each generated rule enumeration have different names, and so have the types and modules generated for each grammar module; every rule of every module is a value of the enumeration, and different rules are different values.", "quantifier": "every grammar the generator accepts", "why_tests_cant": "all grammars, including names that collide with generated ones", "anchors": ["generator/src/common.rs: generate_rule_enum", "generator/src/typed/output.rs: Output::collect", "generator/src/typed/module.rs: alias, insert, insert_rule", "generator/src/typed/generator.rs: process_rules"]}
{"id": "C67", "title": "What the text of a grammar file means", "statement": "Reading a grammar file ends on every text, with an error or with a list of items, and there is one outcome.  It is accepted exactly if the meta-grammar matches all of it.  The items are, one by one and in order, what the text says: rules with name, parameters, silence and expression by the rules of binding, imports with path, file and alias, documentation; all names are identifiers.  It panics only on an import with arguments.  Texts containing a double quote between apostrophes are excepted, and for the content of the items those with a raw string with pounds; such literals are misread (C42, C43).  `use a::b` in the text of dir/f names dir/a/b.pest.", "quantifier": "every text", "why_tests_cant": "all grammar texts", "anchors": ["meta/src/grammar.pest", "meta/src/parser.rs: _parse, parse_rule, parse_grammar"]}
{"id": "C68", "title": "The notation of grammars", "statement": "A text made of documentation, imports and rules written in the notation of grammars, with blanks and comments (line comments, nested block comments) between the tokens, is accepted and read as what the notation says: the levels of binding, literals with escapes, raw strings, ranges, paths, calls with or without a trailing comma, slices, repetitions with bounds and separators, parameters, silent rules, bodies with or without braces, imports with file and other name.  No text has two meanings.  Every list of rules and imports with proper names and expressions, at least one rule, is what some text says, and only such lists are read from texts.", "quantifier": "every text written in the notation, every grammar", "why_tests_cant": "unbounded texts and nestings; blanks and comments between any two tokens; both directions", "anchors": ["meta/src/grammar.pest", "meta/src/parser.rs: _parse, parse_rule, parse_node, parse_term, parse_path_raw, parse_grammar"]}
{"id": "C69", "title": "Displayed expressions say what the expression is", "statement": "The text displayed for a grammar expression, which the documentation of every generated struct quotes, is an expression in the notation of grammars and is read as the expression it was displayed for.  So different expressions are displayed differently, and the documentation of a generated struct tells the name and the expression of its rule.", "quantifier": "every expression that can be written, however characters are judged printable", "why_tests_cant": "unbounded nesting of expressions and all strings", "anchors": ["meta/src/parser.rs: Display for ParseExpr, PathArgs, Range, Trivia; fmt_sep", "generator/src/typed/generator.rs: create_rule"]}
{"id": "C70", "title": "What generated code refers to exists", "statement": "In the code generated for a grammar, every path in the type of a rule, in the trivia and in the signature of an accessor leads to a type that is defined there, with as many arguments as the type has parameters, whichever imported file the rule is in; parameters that are used are parameters of the rule.  The generated module of sequence and choice types declares every name once and takes from the library only what the library has, for any number of parts.", "quantifier": "every grammar the generator accepts, every nesting of imports, sequences and choices of any length", "why_tests_cant": "unbounded lengths, nestings and depths; every combination of names", "anchors": ["generator/src/typed/output.rs: Tracker::collect, Output::collect, types_mod", "generator/src/typed/generator.rs: process_expr, process_rules, create_rule", "generator/src/typed/module.rs: RuleGenerics::call", "generator/src/typed/getter.rs: Node::expand", "core/src/sequence.rs", "core/src/choice.rs"]}
{"id": "C71", "title": "The derive macro does what the attributes say", "statement": "For a type with attributes, the derive macro generates the parser for the rules and imports of all grammars named or written in the attributes, in the order of the attributes; of several values for an option the last counts, other attributes and the mixing of attributes of different kinds do not matter. A grammar file is looked for in the directory of the package and then in its src directory. The generated code includes exactly the files the grammar was read from. Generation fails exactly if an attribute is written wrongly, there is no grammar, a grammar cannot be loaded or generated. Every attribute that the macro declares has the effect of its name.", "quantifier": "all lists of attributes, all file systems and directories, all grammars", "why_tests_cant": "all combinations of attributes and files; the absence of an effect cannot be seen in a test that does not compare", "anchors": ["derive/src/lib.rs: derive_typed_parser", "generator/src/typed/attr.rs: parse_derive", "generator/src/config.rs: get_string, get_bool, collect_data", "generator/src/typed/generator.rs: derive_typed_parser, generate_typed", "generator/src/common.rs: generate_include", "generator/src/typed/config.rs: Config"]}
{"id": "C72", "title": "The identifiers of the generated code are valid in Rust", "statement": "For every accepted grammar, the generator makes all identifiers of the generated code (of structs, enum variants, modules, parameters, accessor functions, literal wrappers and paths) without a panic, and each of them is one that Rust accepts: either a plain identifier that is no keyword, or a raw one that may be raw.", "quantifier": "all grammars, configurations and names", "why_tests_cant": "there are infinitely many names, and the names that go wrong are few and not those one tries", "anchors": ["generator/src/typed/generator.rs: process_rules, create_rule", "generator/src/typed/module.rs: ModuleNode", "generator/src/typed/output.rs: Output::collect, Tracker::collect", "generator/src/typed/getter.rs: Node::expand", "generator/src/common.rs: generate_rule_enum"]}
{"id": "C73", "title": "What a message says was expected is what can be written", "statement": "When a text is rejected as a grammar, the message names what was expected. If it quotes a text, writing this text there is what is meant: whatever is accepted there contains the text, and the text alone is accepted. Two different things that can be expected are never called the same.", "quantifier": "all rules of the notation, all texts and positions", "why_tests_cant": "a test sees one message; that a name in a message is right means that all texts accepted there agree with it", "anchors": ["meta/src/error.rs: rename_meta_rule", "meta/src/grammar.pest", "generator/src/typed/generator.rs: derive_typed_parser"]}
{"id": "C74", "title": "Documentation comments become the documentation of the generated enumeration", "statement": "For every text accepted as a grammar, the lines that begin with //! before all imports and rules are, in order, the documentation of the generated enumeration Rule, and the lines that begin with /// before a rule are, in order, the documentation of the variant of this rule; each line is given without its sign and without the white space around it. Nothing else is documentation: not ordinary comments, and the variants for the end of input and for imports have none. Reading documentation never fails or panics.", "quantifier": "all texts, with any number of lines, any Unicode characters, and any comments and blanks in between", "why_tests_cant": "unbounded texts; which line belongs to which rule depends on the whole text, and slicing at a fixed byte may panic for some character", "anchors": ["meta/src/parser.rs: parse_rule, parse_grammar_doc, parse_rule_doc, _parse, FromIterator", "meta/src/doc.rs: DocComment", "meta/src/grammar.pest: rule_doc, grammar_doc, doc_content", "generator/src/common.rs: generate_rule_enum"]}
{"id": "C75", "title": "From the text of a grammar to the texts its parser accepts", "statement": "For a declaration with the derive macro whose grammars have unambiguous names and no silent rules with parameters: a parser is generated exactly if the attributes are written as they have to be, there is a grammar, and everything in it is well scoped. Whenever one is generated, try_parse with the type of a rule accepts exactly the texts that the expression written for this rule matches completely, according to the meaning of the notation; the tokens of an accepted text are those of the rules applied; it returns an error exactly for texts of which the expression matches nothing or only the beginning; and it does not return exactly on texts for which the meaning gives neither.", "quantifier": "all declarations, all texts of grammars, all inputs, all rules without parameters in all modules", "why_tests_cant": "infinitely many grammars and inputs; a mistake in any of reading, loading, inlining, generating and running would falsify it", "anchors": ["derive/src/lib.rs: derive_typed_parser", "meta/src/parser.rs: parse, _parse", "generator/src/typed/generator.rs: derive_typed_parser, generate_typed", "core/src/typed/traits.rs: TypedNode::try_parse"]}
{"id": "C76", "title": "The text of a token tree determines the tree", "statement": "For every grammar whose rules and imports have words as names, none of them EOI: two token trees of its parser that are displayed by the same text are the same tree, with the same rules, the same positions and the same nesting. No such text is the beginning of another one, so that texts written one after the other can be told apart. All token trees that the parser returns are such trees.", "quantifier": "all grammars, all token trees of any depth and width, all positions", "why_tests_cant": "trees are unbounded; two trees that are confused would have to be guessed", "anchors": ["core/src/token/mod.rs: Display for Pair", "generator/src/common.rs: generate_rule_enum", "core/src/typed/traits.rs: PairTree::as_pair_tree"]}
{"id": "C77", "title": "Spans of rules and expressions", "statement": "For every text read as a grammar, the spans handed out with it are right. The span of a rule reaches from its documentation to its end, spans of rules do not overlap and come in the order of the text, and at the span of a rule stands a rule with the name, the parameters and the expression that were read. The span of a literal, of a range of characters, of a slice and of a call is exactly the notation of it. The span of a name is the name with the blanks and comments after it. The span of an operator with operands reaches from the first to the last of these, with the operator between them; parentheses around an operand do not count. The spans of parts lie within those of the whole, and all begin and end between characters, so that taking the text out never panics. The spans change nothing in what is read, and there is only one way to read a text.", "quantifier": "all texts, all rules in them and all parts of their expressions, at any depth", "why_tests_cant": "expressions nest without bound, spans are computed by combining those of parts, and blanks, comments and characters of several bytes may stand everywhere", "anchors": ["meta/src/parser.rs: Span, parse_rule, parse_node, parse_path, parse_term, _parse", "meta/src/grammar.pest"]}
{"id": "C78", "title": "Errors in grammars are reported where they are", "statement": "For every text in which a rule or an import is in error, the reported span is at what is wrong: a string or character literal of which an escape denotes no character, a number that is too large, a repetition range with its bounds the wrong way round or with the upper bound zero. The message fits what stands there, with the numbers that stand there. The span is never empty, begins and ends between characters, and lies within the rule or import. The error reported for a rule is that of the first wrong part.", "quantifier": "all texts, all rules and imports with an error", "why_tests_cant": "errors may be at any depth after any text; a wrong span or message shows only for the combination of both", "anchors": ["meta/src/parser.rs: parse_rule, parse_term, parse_path, parse_bounded_repeat, parse_range, pair_to, string_content, _parse", "meta/src/grammar.pest"]}
{"id": "C79", "title": "Expressions that do the same can be exchanged", "statement": "If in some rules of a grammar, in any of its modules, the expression is replaced by one that matches the same, then the parsers derived from both grammars cannot be told apart: every rule without parameters accepts, rejects and runs forever on the same texts, and gives the same token trees if the exchanged expressions also show the same tokens. Doing the same is kept by all operators and in arguments of calls. Among the expressions that do the same in all grammars are: choices and sequences grouped differently; a | (a - b) and a; \"ab\" after \"a\" in a choice and nothing; a ~ b | a ~ c and a ~ (b | c); a | b and a | !a - b; a? and a | \"\"; !!a and &a; e{1..} and e+, e{0..1} and e?; e{m+1..n+1} and e - e{m..n}; (e ~){m+1..n+1} and e ~ (e ~){m..n} for m > 0; \"ab\" and \"a\" - \"b\"; 'a'..'a' and \"a\"; ^\"1\" and \"1\". In rules without parameters, a rule of the same module and its expression match the same, but not with the same tokens. Not among them: a | b and b | a; a - c | b - c and (a | b) - c; (e ~){1..2} and e ~ (e ~){0..1}.", "quantifier": "all grammars, all modules and rules in them, all expressions, all positions, stacks and inputs", "why_tests_cant": "a law has to hold for every expression in place of its letters, in every grammar, at every position and stack; tests compare two parsers on some inputs", "anchors": ["generator/src/typed/generator.rs: process_expr, process_rule", "core/src/choice.rs: choice_type", "core/src/sequence.rs: sequence_type", "core/src/typed/template/repetition.rs: RepMinMax", "core/src/typed/template/mod.rs: Positive, Negative, Str, Insens, CharRange"]}
{"id": "C80", "title": "Grammars without left recursion give parsers that return", "statement": "If no rule of a grammar can try itself, directly or through other rules, before a character has been taken, then the parser derived from it returns on every text: every rule without parameters gives a value or an error, and never runs forever. Whether a rule can be tried first is seen from the grammar as written: operands on the left, operands after something that may match the empty text, trivia after something that may match the empty text, arguments of parameters that may be tried first. Rules may be recursive, also through parameters, and repetitions may have bodies that match the empty text. Conversely, the parsers of rules that always try themselves, or each other in turn, before anything else return on no text.", "quantifier": "all grammars, all their modules and rules, all texts", "why_tests_cant": "no test can show that a parser returns on all texts, nor that it never returns", "anchors": ["generator/src/typed/generator.rs: process_expr, process_rule", "core/src/typed/traits.rs: TypedParser::try_parse", "core/src/typed/template/repetition.rs: RepMinMax", "core/src/sequence.rs: sequence_type", "core/src/choice.rs: choice_type"]}
{"id": "C81", "title": "Errors speak about the grammar", "statement": "If the parser of a rule rejects a text, the error is about the furthest place at which a rule of the grammar was tried, or an access to the stack was illegal, while matching the expression of the rule as it is written: within sequences, choices, repetitions (also what is tried in vain after the last match), predicates, trivia, arguments and parameters, in all modules. It lists as expected exactly the rules that were tried there, were wanted and failed, and as unexpected exactly those that matched under a !, if they tried no other rule, each under the innermost enclosing rule that began elsewhere; silent rules are listed like others, trivia rules are not, but rules used in them are. If the rule matches only a part of the text, the end of the input counts as a rule tried where the match ends. Nothing is listed but rules of the grammar and the end of the input. The message shows the line up to the place and says exactly that. There is an error exactly if the grammar says that the rule does not match all of the text.", "quantifier": "all grammars, all their modules and rules, all texts, all numberings of the rules", "why_tests_cant": "what has to be listed depends on everything that was tried, at any depth, also in vain; tests compare the message of some failures", "anchors": ["core/src/typed/tracker.rs: Tracker", "generator/src/typed/generator.rs: create_rule, process_expr", "core/src/typed/traits.rs: full_rule_struct, TypedNode::try_parse_with, TypedParser::try_parse"]}
{"id": "C82", "title": "Silent rules with parameters are transparent", "statement": "The parser derived from a grammar that has silent rules with parameters in its top module is the parser of the grammar as written, provided no names are confused (see C46). A rule without parameters accepts exactly the texts its expression matches, rejects the others, and runs forever only if the grammar says neither. In the token tree a call of such a rule leaves no trace: the tokens inside it are tokens of where it is called. In errors it is never mentioned: what is tried inside it is tried by the rule that makes the call. Such a grammar is accepted if it is well scoped, every silent rule with parameters uses one of them and does not call itself, and no such rule is called within an argument. Other silent rules do hide the tokens inside: those without parameters, and those of imported modules.", "quantifier": "all grammars with silent rules with parameters, all their rules and modules, all texts", "why_tests_cant": "calls may be nested in any way and in any expression; whether tokens and errors are those of the grammar as written has to hold for every match and every failure", "anchors": ["generator/src/typed/generator.rs: collect_silent_rules_with_args, inline_silent_rules_with_args, generate_typed, create_rule", "meta/src/parser.rs: ParseExpr::replace", "core/src/typed/tracker.rs: Tracker"]}
{"id": "C83", "title": "The types of accessors follow from the expression", "statement": "The type of an accessor of a generated struct follows from the expression of the rule, and from nothing else: a reference is &T; below ?, or in an alternative of a choice, it is in an Option; below a repetition it is in a Vec; if several operands of a sequence, or several alternatives of a choice, contain the reference, the types are in a tuple, in the order of the operands. An Option is never directly in an Option, and a tuple has at least two components. There is an accessor exactly if there is a reference outside of negative predicates and arguments. The accessor returns a plain &T exactly if there is one such reference and it is not optional: not below ?, not in a choice and not in a repetition. What the accessor returns for a match is a value of the type, so that the type bounds the number of references that were matched: exactly one for &T, at most one for Option<&T>.", "quantifier": "all grammars, all their modules and rules, all names, all matches", "why_tests_cant": "tests look at the accessors of some rules; the type has to follow the expression at every depth of nesting", "anchors": ["generator/src/typed/getter.rs: Node::expand, Node::flattenable, Node::wrap, Node::merge, GetterByName", "generator/src/typed/generator.rs: process_expr, create_rule"]}
{"id": "C84", "title": "Where rules are written, and what they are called, does not matter", "statement": "A rule of a grammar does the same (a) in every grammar that imports the first, directly or through other files, (b) after rules and imports have been added to any of its modules, or the rules, the imports or the sources have been put into another order, and (c) after the rules of the top module, and the parameters of rules, have been given other names: the parsers accept the same texts, reject the same texts and run forever on the same texts; the trees of tokens are the same, up to the values of Rule, which are those of the moved rules; and the errors are the same, if the values of both enumerations are numbered alike.", "quantifier": "all pairs of declarations from which parsers are derived, of grammars related like that and of any rules that correspond; all rules without parameters; all texts", "why_tests_cant": "tests use rules in the grammars they were written for; here the grammar around the rule is arbitrary", "anchors": ["generator/src/typed/generator.rs: process_rules, process_rule, create_rule, process_expr", "generator/src/typed/module.rs: ModuleNode::child, ModuleNode::insert_rule, ModuleNode::alias, ModuleSystem::resolve", "generator/src/typed/generator.rs: derive_typed_parser"]}
{"id": "C85", "title": "Alternatives that begin differently can be written in any order", "statement": "From the notation of a grammar one can read off how the matches of an expression may begin: with which characters, or without taking any in front of which character or the end of the text; through rules, parameters, trivia and predicates. An expression never matches in front of anything else. Of two expressions that cannot both begin in front of the same, at most one matches at any place. Therefore the alternatives of a choice that pairwise begin differently can be put into any order and grouped in any way: the choice matches the same with the same tokens, provided the alternatives return, which they do in grammars that are not left recursive. So parsers derived from grammars that differ in the order of such alternatives, in any number of rules and modules, accept the same texts, reject the same texts, and give the same tokens. Neither condition can be left out.", "quantifier": "all grammars, all expressions, everything parameters may stand for, all texts, positions and stacks; all pairs of derived parsers of such grammars", "why_tests_cant": "first characters are computed through any number of rules; that they are right has to hold for every text; tests try some texts with some order of alternatives", "anchors": ["core/src/choice.rs: choice_type", "generator/src/typed/generator.rs: process_expr", "core/src/typed/traits.rs: TypedParser::try_parse"]}
{"id": "C86", "title": "What a rule finds depends only on the text ahead of it", "statement": "A rule that does not use pest::soi, itself or through the rules, parameters and trivia it uses, does the same after any text: in front of the same text it fails alike, or takes the same text, with the same tokens and the same errors except that their offsets are moved by the difference in place. A rule that uses none of the built-ins of pest::stack leaves the stack as it found it and does the same whatever is on it. Whether a grammar uses them can be read off its rules. Every token in the tree of a parse, at any depth, is that of a match of its rule at that place; so running the parser of that rule (if it has no parameters and uses neither) on the text from where the token begins stops where the token ends and returns the same token with the same tokens inside, moved to the beginning. Neither condition can be left out.", "quantifier": "all grammars, all expressions, everything parameters may stand for, all texts before and ahead, all stacks; all derived parsers, all inputs, all tokens at any depth of the resulting trees", "why_tests_cant": "a rule is reached in unboundedly many places with unboundedly many texts before it and stacks left by other rules; tests show some of them", "anchors": ["core/src/position.rs: Position", "core/src/typed/template/mod.rs: soi, peek, pop, push", "core/src/typed/traits.rs: TypedParser::try_parse_partial", "core/src/token/mod.rs: Pair"]}
{"id": "C87", "title": "Which rewritings of a grammar keep the error messages", "statement": "If expressions of a grammar are exchanged for others that, wherever they are tried and whether they match or not, try the same rules at the same places in the same order, then the generated parsers reject the same texts and the error is the same, to the order of the rules in it. If only the same is to be reported about both expressions, maybe in another order or more often, then the error is at the same place and names the same rules as expected and unexpected under the same enclosing rules. Regrouping sequences and choices, writing e? as e | \"\", e{0..1} as e?, unrolling repetitions, &&e as &e, &!e as !e, and any exchange of expressions of literals that match the same keep the error; leaving out an alternative that was there before or starts with one before it and taking out a common beginning keep the rules named. Writing !!e as &e, !&e as !e, guarding an alternative by !e, and replacing a rule by its expression keep what is matched but not the error.", "quantifier": "all grammars, all expressions in all contexts (operators and arguments of calls, at any depth, any number of exchanges), all derived parsers, all rules without parameters, all inputs", "why_tests_cant": "an error collects what was tried in all branches of the parse at the furthest place; whether a refactoring preserves it depends on all inputs that are rejected", "anchors": ["core/src/typed/tracker.rs: Tracker", "core/src/typed/template/mod.rs: Negative, Positive", "core/src/choice.rs: choice", "core/src/typed/traits.rs: TypedParser::try_parse"]}
{"id": "C88", "title": "When an error says what was expected", "statement": "Call a grammar outspoken if every rule of it is either built of literals and built-ins that do not look at the stack alone, or its expression is built of rules by sequence, choice, option, repetition, calls and push, with literals only where they need not match: options, repetitions of zero or more, alternatives beside ones with rules. Then every error of the generated parser, for any text, names at least one rule that was expected at its place. Without the condition errors may name nothing: for y = x - \"c\" and x = \"a\" the text ab is rejected with an error at the beginning of the text and no rule at all in the message.", "quantifier": "all grammars, all derived parsers, all rules without parameters, all inputs", "why_tests_cant": "whether an error can be empty depends on all texts that are rejected and on which rules tried others before they failed", "anchors": ["core/src/typed/tracker.rs: Tracker::record_during_with, Tracker::collect", "core/src/typed/traits.rs: TypedParser::try_parse", "generator/src/typed/generator.rs"]}
{"id": "C89", "title": "How often rules are tried", "statement": "Call a grammar predictive if, in all rules without parameters, the next character (or the end of the text) decides which alternative can match, whether an option matches, and whether a repetition goes on (the usual LL(1) condition, with what may follow a rule given; repetitions have no trivia between the items). For a predictive grammar without left recursion there is one number A such that, on every text, the parser answers, and the number of times that a rule has been tried until then is at most A times one more than the number of characters. Counting does not change what the parser does. Without the condition the number can double with every character: the parser of x = \"(\" - x - \"a\" | \"(\" - x - \"b\" | \"\" tries rules 2^(n+1) times on n parentheses (nothing is remembered from one alternative to the next).", "quantifier": "all grammars, all derived parsers, all rules without parameters, all inputs", "why_tests_cant": "a bound for texts of every length cannot be observed on finitely many of them; benchmarks measure single texts", "anchors": ["core/src/typed/tracker.rs: Tracker::record_option_during_with", "core/src/typed/traits.rs: TypedNode::try_parse_with", "core/src/choice.rs", "core/src/sequence.rs", "core/src/typed/template/repetition.rs", "generator/src/typed/generator.rs"]}
{"id": "C90", "title": "When a grammar can be read without order", "statement": "Read a grammar without order: a | b is one of the two, a? one or none, a repetition any allowed number of items. (1) Everything that the parser matches can be matched in this reading. (2) If the order does not matter (where what follows, or a later alternative followed by it, can go on, an earlier alternative cannot match, and no further item of a repetition can), then, if the parser returns, it matches exactly what can be matched in this reading such that what follows can go on; this is so in particular if the next character decides. (3) Without predicates, stack, soi, eoi and newline, this reading is the context-free grammar: what can be matched at a place is exactly the texts that it generates. So the parser of such a grammar accepts only generated texts, and exactly the generated texts if it is not left-recursive and the next character decides. (4) If trivia are blanks, it is enough that the next character that is not blank decides, although blanks in front of what is left out can be matched by either ~: what can be matched such that what follows can go on is then matched up to some blanks behind it, and what can be matched up to the end is matched up to the end, so the parser accepts exactly the texts generated. Without the condition, generated texts can be rejected: ab by x = \"a\" | \"ab\".", "quantifier": "all grammars, modules, parameters and arguments, all derived parsers, all inputs", "why_tests_cant": "that no generated text is rejected is a statement about all texts of an infinite language; tests contain some of them", "anchors": ["core/src/choice.rs", "core/src/sequence.rs", "core/src/typed/template/repetition.rs", "core/src/typed/traits.rs: TypedNode::try_parse", "generator/src/typed/generator.rs", "meta/src/parser.rs: ParseExpr"]}
{"id": "C91", "title": "The two variants of skip_until give the same result", "statement": "skip_until has a second variant, for the feature memchr, which looks for the first bytes of the strings. It never panics at a valid position and moves the cursor and reports like the first variant, whatever the strings.", "quantifier": "every input, valid position, list of strings", "why_tests_cant": "the byte search can stop inside characters and the cases depend on the number of strings and on which are empty; the feature is not declared, so no test runs it", "anchors": ["core/src/position.rs: skip_until, skip_until_basic"]}
{"id": "C92", "title": "The state machine that is built for a rule parses what the rule says", "statement": "For rules made of character ranges, sequences, choices and repetitions the state builder emits methods with different names that call only each other, and the emitted parse returns true exactly if the rule matches a prefix of the bytes ahead, leaving the index behind it; it returns None for an unknown rule and panics exactly for rules using other expressions. parse returns whenever the items of repetitions take something.", "quantifier": "every expression, every rule table, every input text and starting index", "why_tests_cant": "the wiring of accepting and rejecting states is nested like the expression and texts are unbounded; the tests compare token streams and never run the machine", "anchors": ["generator/src/state_builder.rs: StateBuilder::build, gen_expr, next_id, State::gen", "generator/src/expr.rs: Expr"]}
{"id": "C93", "title": "The JSON parser of the examples accepts JSON", "statement": "A declaration with the grammar file tests/json.pest (which imports tests/common/base.pest) compiles, and try_parse of the struct json returns a tree exactly for the JSON texts of RFC 8259 and an error for all other texts; it never loops.", "quantifier": "every input text (shorter than usize::MAX characters), every place of the package, every file system holding the two files", "why_tests_cant": "texts are unbounded and values nest to any depth; the tests parse a handful of texts", "anchors": ["derive/tests/json.rs: Parser", "derive/tests/json.pest", "derive/tests/common/base.pest", "generator/src/typed/generator.rs: derive_typed_parser", "core/src/typed/traits.rs: TypedNode::try_parse"]}
{"id": "C94", "title": "The calculator parser of the examples accepts arithmetic expressions", "statement": "A declaration with the grammar file tests/calc.pest (which imports tests/common/base.pest) compiles, and try_parse of the struct program returns a tree exactly for the arithmetic expressions (numbers, + - * / ^ between operands, - in front, ! behind, parentheses), with blanks allowed anywhere except inside numbers, and an error for all other texts; it never loops.", "quantifier": "every input text (shorter than usize::MAX - 1 characters), every place of the package, every file system holding the two files", "why_tests_cant": "texts are unbounded and parentheses nest to any depth; the tests parse two texts", "anchors": ["derive/tests/calc.rs: CalcParser", "derive/tests/calc.pest", "derive/tests/common/base.pest", "generator/src/typed/generator.rs: derive_typed_parser", "core/src/typed/traits.rs: TypedNode::try_parse"]}
{"id": "C95", "title": "The parser of tables of the examples, written with parameterised rules, accepts exactly the tables and shows their cells", "statement": "A declaration with the inline grammar of tests/meta_rules.rs (separated(i, sep), cell, main = separated(separated(cell, comma), newline)) compiles; try_parse of the struct main returns a tree exactly for the texts that are tables - lines of cells separated by commas, blanks around the commas - and an error for all others; the tokens of the tree are main, separated, one separated for each row and one cell for each cell with the text of the cell; and a text is a table in one way only.", "quantifier": "every input text (shorter than usize::MAX - 1 characters), every number of rows and cells", "why_tests_cant": "texts are unbounded; the tests parse two tables and five other texts", "anchors": ["derive/tests/meta_rules.rs: Parser, to_json", "generator/src/typed/generator.rs: derive_typed_parser", "core/src/typed/traits.rs: TypedNode::try_parse", "core/src/typed/traits.rs: PairTree::as_pair_tree"]}
{"id": "C96", "title": "Blanks and comments are allowed exactly where the grammar puts trivia", "statement": "With the grammar of tests/skip.rs try_parse of main returns a tree exactly for the empty text and for x, x ... x with any blanks and closed comments between them but not around them, try_parse_partial of main takes the longest such text at the beginning of the input, and try_parse of program returns a tree exactly for the texts of blanks, closed comments and x in any order; with the grammar of examples/reader.rs, whose trivia rule is not repeated, try_parse of main returns a tree exactly for x ... x with one blank or closed comment between two of them. All other texts give an error, and the parsers never loop.", "quantifier": "every input text (shorter than usize::MAX - 1 characters)", "why_tests_cant": "texts are unbounded; the tests parse eight texts", "anchors": ["derive/tests/skip.rs: Parser", "derive/examples/reader.rs: Parser", "generator/src/typed/generator.rs: derive_typed_parser", "core/src/typed/traits.rs: TypedNode::try_parse, try_parse_partial"]}
{"id": "C97", "title": "Parsers with a stack accept the texts that repeat what was pushed", "statement": "With the rules of tests/grammar.pest that use the stack, try_parse returns a tree for exactly these texts, and an error for all others: peek_ two digits a b followed by b b; peek_all, pop_ and pop_all a b followed by b a; peek_slice_23 five digits a b c d e (blanks and dollar signs allowed after c, d and e) followed by b c; pop_fail a b a with b different from a; repeat_mutate_stack any letters a to c, each followed by a comma, followed by the last three letters in reverse order; repeat_mutate_stack_pop_all the same followed by all the letters in reverse order; will_fail such a text followed by FAIL; stack_resume_after_fail either of the two (a failed alternative leaves the stack as it was); checkpoint_restore aba, b and a. The parsers never loop.", "quantifier": "every input text (shorter than usize::MAX - 1 characters) and every lawful stack", "why_tests_cant": "texts are unbounded, and so is the stack; the tests parse one or two texts per rule", "anchors": ["derive/tests/grammar.pest: stack rules", "derive/tests/grammar.rs: peek, peek_all, pop, pop_all, pop_fail, checkpoint_restore", "core/src/typed/template/mod.rs: PeekSlice2", "core/src/lib.rs: Stack", "generator/src/typed/generator.rs: derive_typed_parser"]}
{"id": "C98", "title": "Each operator of the grammar notation accepts the texts its rule of the tests is meant for", "statement": "With tests/grammar.pest, try_parse returns a tree for exactly these texts, and an error for all others: string and ident abc; insensitive its eight spellings with capitals; range a digit; pos_pred and double_neg_pred none and neg_pred only the empty text (what a predicate looks at is not taken); sequence_atomic abcabc; sequence_optional_trivia (and the nested ones) abc twice with any blanks and dollar signs between; sequence_mandatory_trivia with at least one; choice and choice_prefix abc or a digit; optional nothing or abc; the repetitions as many copies of abc as their bounds say (upper bounds included), with blanks and dollar signs between copies, never before the first or after the last, for those with a tilde, and without any for the atomic ones; soi_at_start abc; the long choices one of the numbers 01 to 16, 17 or 19; the long sequences all of them in order, with blanks and dollar signs between.", "quantifier": "every input text (shorter than usize::MAX - 1 characters) and every lawful stack", "why_tests_cant": "texts are unbounded; the tests parse one or two texts per rule", "anchors": ["derive/tests/grammar.pest", "derive/tests/grammar.rs", "generator/src/typed/generator.rs: derive_typed_parser", "core/src/typed/template/repetition.rs: RepMinMax", "core/src/sequence.rs: sequence_type", "core/src/choice.rs: choice_type"]}
{"id": "C99", "title": "The parser with silent parameterised rules of the examples accepts exactly the files of records, and its tree shows the records and fields only", "statement": "The parser generated for the grammar of derive/tests/meta_rules_silent.rs accepts with file exactly the texts that are any number of records, each followed by the end of its line (line feed, with or without carriage return), with record exactly one or more fields with single commas between them, with field exactly one or more digits, points and minus signs, and rejects all other texts. The tree of an accepted file has, in one token for the file, one token for each record and directly in it one for each field, at their places in the text, in order: the two silent rules with parameters that record is defined by leave nothing. No text can be read as two different lists of records.", "quantifier": "every input text (shorter than usize::MAX - 1 characters), every lawful stack, every run of the macro on the grammar of the test", "why_tests_cant": "texts are unbounded, and the test parses one; that one silent rule with parameters calls another one is replaced before code is generated", "anchors": ["derive/tests/meta_rules_silent.rs", "generator/src/typed/generator.rs: inline_silent_rules_with_args", "generator/src/typed/generator.rs: derive_typed_parser", "core/src/typed/traits.rs: TypedNode::try_parse", "core/src/typed/traits.rs: PairTree::as_pair_tree"]}
{"id": "C100", "title": "The parsers of the regression grammar and of the sequence tests accept exactly their languages", "statement": "The macro accepts the grammar of derive/tests/issue27.pest, and of the parsers it generates useA accepts exactly a, a comma and any number of b; a and _b accept exactly one or more b; x, which calls itself in a lookahead, always comes to an end, accepts exactly ab, and try_parse_partial with x stops after two characters of a text that begins with ab, after one of a text that begins with two or more a and then b, and fails on every other text. Of the twelve parsers generated for derive/tests/sequence.rs each accepts exactly the one text of its letters, rejects every other text, and with try_parse_partial matches exactly that text at the beginning.", "quantifier": "every input text (shorter than usize::MAX - 1 characters for the first grammar), every lawful stack, every run of the macro on these grammars", "why_tests_cant": "the regression grammar is only compiled in the tests, no text is parsed; the tests of sequences try four texts per rule; a rule that calls itself in a lookahead may not end or may consume what it looked at", "anchors": ["derive/tests/issue27.pest", "derive/tests/issue27.rs", "derive/tests/sequence.rs", "generator/src/typed/generator.rs: derive_typed_parser", "core/src/typed/template/mod.rs: Positive", "core/src/typed/traits.rs: TypedNode::try_parse", "core/src/typed/traits.rs: TypedNode::try_parse_partial"]}
{"id": "C101", "title": "The parser of the test of imports uses the rule of the imported file", "statement": "The grammar in the attribute of derive/tests/import.rs imports tests::grammar. In every package whose directory is not called ….pest and that has the file tests/grammar.pest of the repository, the macro finds that file and generates parsers; main, and the rule string in the module of the import, accept exactly the text abc and reject every other text. In a package whose directory is called ….pest the file is looked for beside that directory, and without one there the macro generates nothing.", "quantifier": "every input text, every package directory, every lawful stack, every run of the macro", "why_tests_cant": "the test is only compiled, no text is parsed; the directory of the package is where the tests happen to be built", "anchors": ["derive/tests/import.rs", "derive/tests/grammar.pest", "meta/src/parser.rs: mod_path_to_fs_path", "meta/src/parser.rs: parse", "generator/src/typed/generator.rs: derive_typed_parser", "core/src/typed/traits.rs: TypedNode::try_parse"]}
{"id": "C102", "title": "The types of the rules are in the module that the attribute names", "statement": "The types generated for the rules of a grammar are in the module named by the last attribute rules_mod, or rules without one; those of the rules of a file imported as x are in the module of that name in x inside it, and so on. That module has exactly one type per rule, in the order of the rules, and the two types for trivia. For the declarations of derive/tests/custom_rules_mod.rs these are custom::main, whose parser accepts exactly hello, and rules::greeting, whose parser accepts exactly world.", "quantifier": "every accepted declaration whose grammar has no silent rules with parameters, every imported module; every input text for the two parsers", "why_tests_cant": "nesting and attributes are unbounded; the tests try one custom name and one text each", "anchors": ["derive/tests/custom_rules_mod.rs", "generator/src/typed/attr.rs: parse_derive", "generator/src/typed/output.rs: Output::collect, types_mod", "generator/src/typed/generator.rs: derive_typed_parser", "core/src/typed/traits.rs: TypedNode::try_parse"]}
