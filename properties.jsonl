{"id": "C01", "title": "Parser accepts only sentences of the grammar", "statement": "If Parser::new(&grammar) succeeds and parse_stream(tokens) returns true, then the token sequence is derivable from the grammar's root production.", "quantifier": "every grammar (any token and label types), every finite token sequence; in the rules only epsilons follow an epsilon and there is no end marker (so for every grammar of the macro, C38; for the rest see C78)", "why_tests_cant": "infinitely many grammars and inputs; a wrong table entry may only show on one long input", "anchors": ["lr_table/src/parse_simulator.rs: Parser::new, Parser::parse_stream", "lr_table/src/lr_table.rs: LRTable::build"]}
{"id": "C02", "title": "Parser accepts every sentence of the grammar", "statement": "If Parser::new(&grammar) succeeds and the token sequence is derivable from the root production, parse_stream returns true.", "quantifier": "every grammar for which the table was built, every sentence", "why_tests_cant": "a missing lookahead token only shows on the particular sentences that need it", "anchors": ["lr_table/src/parse_simulator.rs: Parser::parse_stream", "lr_table/src/first_map.rs: FirstTable::propagate_map", "lr_table/src/closure.rs"]}
{"id": "C03", "title": "Parsing terminates on every input", "statement": "parse_stream (and the generated parse loop) finishes after finitely many steps on every finite token sequence, accepted or not: it can never loop on reductions that consume no input.", "quantifier": "every grammar for which the table was built, every token sequence; in the rules only epsilons follow an epsilon and there is no end marker (so for every grammar of the macro, C38; for the rest see C78)", "why_tests_cant": "non-termination cannot be observed by running finitely many inputs", "anchors": ["lr_table/src/parse_simulator.rs: Parser::parse_stream", "parser_generator_impl/src/code_gen/parse_loop.rs"]}
{"id": "C04", "title": "Parsing never panics", "statement": "While parse_stream runs, no debug assertion fails, no table index is out of range, and the state stack is never emptied: the result is always a boolean.", "quantifier": "every grammar for which the table was built, every token sequence; in the rules only epsilons follow an epsilon and there is no end marker (so for every grammar of the macro, C38; for the rest see C78)", "why_tests_cant": "a violated stack discipline may need one particular reachable configuration", "anchors": ["lr_table/src/parse_simulator.rs: parse_stream (debug_asserts, unwrap)"]}
{"id": "C05", "title": "A grammar that is accepted is unambiguous", "statement": "If LRTable::build succeeds, no token sequence has two different parse trees from the root.", "quantifier": "every grammar for which the table was built, every token sequence, every pair of parse trees", "why_tests_cant": "ambiguity is undecidable in general and quantifies over infinitely many sentences", "anchors": ["lr_table/src/lr_table.rs: LRTable::build, add_reduce_action, add_shift_action"]}
{"id": "C06", "title": "FIRST sets are sound", "statement": "Every terminal recorded as a possible first token of a production label really begins some sentential form derived from the label, and epsilon is recorded only for labels that derive the empty sequence.", "quantifier": "every indexed grammar, every label, every token", "why_tests_cant": "holds for every grammar shape, including mutual recursion of any depth", "anchors": ["lr_table/src/first_map.rs: FirstTable::build_from_grammar, propagate_map"]}
{"id": "C07", "title": "FIRST sets are complete", "statement": "Every terminal that can begin a sentential form derived from a label is recorded for the label, and epsilon is recorded for every label deriving the empty sequence.", "quantifier": "every indexed grammar, every label, every token", "why_tests_cant": "depends on how many propagation rounds a grammar needs, which has no bound", "anchors": ["lr_table/src/first_map.rs: FirstTable::build_from_grammar, propagate_map (line 49)"]}
{"id": "C08", "title": "Table construction terminates", "statement": "The FIRST computation, each closure computation and the exploration of states all stop after finitely many rounds, so LRTable::build always returns.", "quantifier": "every indexed grammar", "why_tests_cant": "termination over all grammars", "anchors": ["lr_table/src/first_map.rs: build_from_grammar", "lr_table/src/closure.rs: closure_follow_sets", "lr_table/src/lr_table.rs: generate_actions"]}
{"id": "C09", "title": "Table construction never panics", "statement": "LRTable::build on any grammar accepted by IndexedGrammar::build returns Ok or Err and never panics (no failing expect/unwrap/index/debug assertion).", "quantifier": "every grammar accepted by IndexedGrammar::build", "why_tests_cant": "the panicking grammar may be any shape", "anchors": ["lr_table/src/lr_table.rs: try_build_from_partitions (expects), get_or_insert", "lr_table/src/indexed_grammar.rs: build_from_grammar"]}
{"id": "C10", "title": "Grammar validation is exact", "statement": "IndexedGrammar::build succeeds exactly when the grammar is non-empty, its root label is defined by the first production only and is not referenced by later productions, every referenced label has a production, and every label is reachable from the root; otherwise it reports the error of the first check that fails.", "quantifier": "every grammar", "why_tests_cant": "reachability and label resolution over arbitrary grammars", "anchors": ["lr_table/src/indexed_grammar.rs: build_from_grammar, verify_connected"]}
{"id": "C11", "title": "Indexing a grammar preserves it", "statement": "The indexed grammar contains every original production exactly once, with the same symbol and nodes up to a one-to-one renaming of labels and tokens; original_index points back to the production it came from; the rules of one label are contiguous and keep their order; labels are numbered in order of first appearance; the root is label 0 and rule 0.", "quantifier": "every grammar accepted by IndexedGrammar::build", "why_tests_cant": "all sizes and orders of productions", "anchors": ["lr_table/src/indexed_grammar.rs: build_from_grammar, production_rule, production_rule_ids_for_label, orig_production_label"]}
{"id": "C12", "title": "Token ids are a dense bijection", "statement": "Distinct tokens get distinct ids, ids are 0..n-1 in order of first appearance, re-inserting a token returns its old id, id_to_token inverts token_to_id, and the epsilon/end-of-stream/token encoding round-trips.", "quantifier": "every sequence of insertions", "why_tests_cant": "all histories of insertions", "anchors": ["lr_table/src/vocabulary.rs: VocabularyBuilder::get_id_or_insert, AugmentedVocab, AugmentedVocabToken Label impl"]}
{"id": "C13", "title": "Conflicts are reported exactly", "statement": "LRTable::build returns a conflict error exactly when some reachable LR(1) state contains two items that demand different actions on the same lookahead; the rules and the lookahead named in the error are those of such a pair of items.", "quantifier": "every indexed grammar", "why_tests_cant": "every state of every grammar's automaton", "anchors": ["lr_table/src/lr_table.rs: try_build_from_partitions, add_reduce_action, add_shift_action"]}
{"id": "C14", "title": "The table is well formed", "statement": "Every shift and goto target is an existing state, every reduce names an existing non-root rule, accept occurs only on end of stream, there is no action on epsilon, no shift on end of stream, and the table has exactly num_states rows for each token and label.", "quantifier": "every built table, every state, token and label (that the end of stream is not shifted: if the rules contain no end marker)", "why_tests_cant": "all grammars", "anchors": ["lr_table/src/lr_table.rs: LRTable::build, get_action, get_goto, state_actions, goto_actions"]}
{"id": "C15", "title": "States are exactly the reachable item sets, without duplicates", "statement": "State ids are dense, state 0 is the initial item set, two different ids never denote the same item set, every state is reachable from state 0 through shift/goto entries, and no transition leads back to state 0.", "quantifier": "every built table; in the rules only epsilons follow an epsilon and the root rule does not name the root", "why_tests_cant": "all grammars", "anchors": ["lr_table/src/kernel_table.rs: get_or_insert", "lr_table/src/lr_table.rs: generate_actions"]}
{"id": "C16", "title": "The state map always resolves", "statement": "For every table built by LRTable::build, LRStateMap::build_from_lr_table succeeds: every state other than the root has at least one predecessor, all its incoming edges carry the same symbol, and back_edges lists exactly the predecessor states (the root state lists only itself).", "quantifier": "every built table, every state, every hash-map iteration order", "why_tests_cant": "all grammars and all iteration orders", "anchors": ["lr_table/src/lr_state_map.rs: build_from_lr_table, state_type, back_edges"]}
{"id": "C17", "title": "Generated parsers never reach undefined behaviour", "statement": "The code generated by grammar! never executes unreachable_unchecked, never pops or peeks an empty stack with unwrap_unchecked, and never fails a debug assertion, for any input stream.", "quantifier": "every grammar accepted by the macro, every token stream, every hash-map iteration order during generation", "why_tests_cant": "memory safety must hold for all inputs; a test that hits UB may still pass", "anchors": ["parser_generator_impl/src/code_gen/reduce_rule.rs: extract_state, bind_production_nodes_to_locals, apply_goto", "src/parser_state.rs"]}
{"id": "C18", "title": "A returned value is the evaluation of a parse tree", "statement": "If parse returns Ok(v), then the input has a parse tree for the grammar and v is obtained by evaluating the constructors of that tree bottom-up, each constructor receiving its children's values in the right positions.", "quantifier": "every grammar, every constructor behaviour, every input", "why_tests_cant": "all trees and constructors", "anchors": ["parser_generator_impl/src/code_gen/state_action_builder.rs", "parser_generator_impl/src/code_gen/reduce_rule.rs", "parser_generator_impl/src/code_gen/constructor.rs"]}
{"id": "C19", "title": "Every sentence is parsed to the value of its tree", "statement": "If the input has a parse tree whose constructors all succeed, parse returns Ok of that tree's value.", "quantifier": "every grammar for which the table was built, every sentence", "why_tests_cant": "all sentences", "anchors": ["parser_generator_impl/src/code_gen/state_action_builder.rs", "lr_table/src/first_map.rs"]}
{"id": "C20", "title": "Generated parser and simulator agree", "statement": "The generated parser accepts an input (returns Ok, or fails only in user code) exactly when lr_table's Parser simulator accepts the corresponding token sequence.", "quantifier": "every grammar with disjoint token patterns, every input", "why_tests_cant": "all inputs", "anchors": ["parser_generator_impl/src/code_gen/state_action_builder.rs", "lr_table/src/parse_simulator.rs"]}
{"id": "C21", "title": "The error token is the first one that cannot be continued", "statement": "When parse fails with ParseError{next_token}, the tokens before next_token are a prefix of some sentence, and the prefix including next_token is not (next_token is None exactly when the input ended although it is a proper prefix).", "quantifier": "every grammar whose labels are all productive, every input", "why_tests_cant": "quantifies over all continuations of the input", "anchors": ["src/error.rs: ParserError", "parser_generator_impl/src/code_gen/state_action_builder.rs: return_err"]}
{"id": "C22", "title": "No constructor runs on account of a bad token", "statement": "When a token cannot follow the input read so far, it is rejected in the very state in which it is first seen: no reduction (user constructor) happens between looking at the token and reporting it.", "quantifier": "every grammar for which the table was built, every input; in the rules only epsilons follow an epsilon and there is no end marker (so for every grammar of the macro, C38; for the rest see C78)", "why_tests_cant": "all reachable parser configurations", "anchors": ["lr_table/src/lr_table.rs", "parser_generator_impl/src/code_gen/state_action_builder.rs"]}
{"id": "C23", "title": "Constructor failures surface first-come", "statement": "If a constructor fails, parse returns UserError with that error, the failing constructor is the first in left-to-right bottom-up order, and no token after the current lookahead has been pulled from the stream.", "quantifier": "every grammar, every constructor behaviour, every input", "why_tests_cant": "all trees and failure points", "anchors": ["parser_generator_impl/src/code_gen/constructor.rs", "src/error.rs: From<E> for ParserError"]}
{"id": "C24", "title": "Stream failures surface exactly when reached", "statement": "If the input stream yields an error at position k and the tokens before it do not already cause a failure, parse_fallible returns UserError with that error converted; otherwise the earlier failure is returned. Items after position k never influence the result.", "quantifier": "every grammar, every fallible stream", "why_tests_cant": "all streams and error positions", "anchors": ["parser_generator_impl/src/code_gen/state_action_builder.rs: generate_actions", "src/parser_stream.rs", "src/error.rs: into_user_error"]}
{"id": "C25", "title": "parse is parse_fallible on an infallible stream", "statement": "parse(tokens) equals parse_fallible(tokens.map(Ok)), and a UserError from parse always originates in a constructor.", "quantifier": "every grammar, every input", "why_tests_cant": "all inputs", "anchors": ["src/parser.rs: Parser::parse"]}
{"id": "C26", "title": "The parser reads only one token ahead", "statement": "At any time the number of items pulled from the input iterator is one more than the number of tokens shifted, so the result depends only on the tokens up to the reported one.", "quantifier": "every grammar, every stream, every point of the run", "why_tests_cant": "all histories of the parser state", "anchors": ["src/parser_stream.rs: new, advance, peek_next", "src/parser_state.rs"]}
{"id": "C27", "title": "Results do not depend on hash-map iteration order", "statement": "If every token matches at most one token pattern, the behaviour of the generated parser is the same for every iteration order of the hash maps used while generating it.", "quantifier": "every grammar, every iteration order, every input", "why_tests_cant": "orders are random per process", "anchors": ["parser_generator_impl/src/code_gen/state_action_builder.rs: CollectLikeActions", "parser_generator_impl/src/code_gen/reduce_rule.rs"]}
{"id": "C28", "title": "Overlapping token patterns are detected in debug builds", "statement": "With enum terminals and debug assertions, a token that matches two or more lookahead patterns of the current state makes parse return OverlappingTokenMatchers; if it never happens the debug and release parsers behave identically.", "quantifier": "every grammar, every pattern semantics, every input", "why_tests_cant": "all token values", "anchors": ["parser_generator_impl/src/code_gen/state_action_builder.rs: debug_check_token_conflict"]}
{"id": "C29", "title": "The bit set is a finite set", "statement": "set/clear/has/merge/for_each/full of the bit set behave as insert/remove/member/union/ascending enumeration/totality of a finite set of numbers below its length; merge returns true exactly when the set grew; equal contents mean equal (and equally hashed) bit sets.", "quantifier": "every length, every sequence of operations", "why_tests_cant": "all lengths (word boundaries) and histories", "anchors": ["lr_table/src/bit_set.rs"]}
{"id": "C30", "title": "The sparse map is a partial map with insertion-order iteration", "statement": "get/try_insert/get_mut_or_insert_with behave as a partial function; try_insert never overwrites and returns the present value on conflict; iteration yields each present key exactly once in order of first insertion.", "quantifier": "every capacity, every sequence of operations", "why_tests_cant": "all histories", "anchors": ["lr_table/src/fixed_map.rs: SparseFixedSizeMap"]}
{"id": "C31", "title": "Grouping by next symbol is exact", "statement": "Partitioning a closure by next node puts each item in exactly one group, two items share a group exactly when they have the same next node, groups are non-empty and keep item order; the numeric encoding of the categories is one-to-one.", "quantifier": "every kernel of every indexed grammar", "why_tests_cant": "all sizes of vocabularies and item sets", "anchors": ["lr_table/src/closure.rs: partition_closure_by_next_node", "lr_table/src/indexed_grammar.rs: SparsePartitionMap"]}
{"id": "C32", "title": "Label encodings round-trip", "statement": "from_id(id(x)) = x for every label type (u8, usize, Option, augmented token ids).", "quantifier": "every label value", "why_tests_cant": "all values including boundaries", "anchors": ["lr_table/src/fixed_map.rs: Label impls", "lr_table/src/vocabulary.rs"]}
{"id": "C33", "title": "Kernel identity ignores discovery order", "statement": "Two kernels built from the same items in different orders are equal, so the same item set never becomes two states; Kernel::new keeps exactly the given items.", "quantifier": "every list of items with distinct (rule, position) and every permutation of it", "why_tests_cant": "all permutations", "anchors": ["lr_table/src/kernel.rs: Kernel::new"]}
{"id": "C34", "title": "Closure lookaheads are the least solution", "statement": "The follow set computed for a label in a closure contains exactly the tokens forced by the LR(1) closure rules from the kernel items (with the computed FIRST sets): nothing missing, nothing extra; and a label is in the closure exactly when it is reachable through leading nodes.", "quantifier": "every kernel of every indexed grammar", "why_tests_cant": "fixpoints over arbitrary grammars", "anchors": ["lr_table/src/closure.rs: closure_follow_sets", "lr_table/src/position.rs: follow_set_for_rule"]}
{"id": "C35", "title": "Grammar text round-trips", "statement": "Grammar::from_grammar_str parses the textual form of any grammar with non-empty upper-case labels and non-upper-case ASCII terminals back to that grammar, and rejects every text with a line lacking an arrow, with a bad label or with a bad node.", "quantifier": "every text", "why_tests_cant": "all strings", "anchors": ["lr_table/src/grammar.rs: from_grammar_str"]}
{"id": "C36", "title": "Macro tokenisation neither loses nor invents tokens", "statement": "When tokenisation of a macro input succeeds, the concatenation of the source tokens of the produced symbols is the input token sequence, provided punctuation marked joint is followed by punctuation; `=>` and `::` are recognised exactly when their two characters are adjacent.", "quantifier": "every token stream", "why_tests_cant": "all token sequences", "anchors": ["parser_generator_impl/src/symbol.rs: tokenize_from_stream, PunctBuilder::consume_next"]}
{"id": "C37", "title": "The grammar DSL round-trips", "statement": "Parsing the printed form of any list of production declarations (names, optional types, alternatives, nodes, constructors) yields the same list.", "quantifier": "every declaration list", "why_tests_cant": "all shapes of declarations", "anchors": ["parser_generator_impl/src/annotated_grammar/parse_grammar.rs", "parser_generator_impl/src/annotated_grammar/production_rule.rs", "parser_generator_impl/src/annotated_grammar/terminal.rs"]}
{"id": "C38", "title": "The macro only produces grammars with epsilon alone in its rule", "statement": "Every rule the macro passes on is non-empty, contains epsilon only as its single node and never contains the end-of-stream marker; a rule mixing epsilon with other nodes is rejected with an error.", "quantifier": "every macro input", "why_tests_cant": "all inputs", "anchors": ["parser_generator_impl/src/annotated_grammar/production_rule.rs: parse_rule"]}
{"id": "C39", "title": "Types of a label are consistent", "statement": "If the macro accepts, all declarations of one label carry the same type (or none), and the lookup of a label's type never fails for labels of the grammar.", "quantifier": "every macro input", "why_tests_cant": "all declaration lists", "anchors": ["parser_generator_impl/src/annotated_grammar/label_type_map.rs"]}
{"id": "C40", "title": "Constructor references resolve to the right child", "statement": "In a constructor body `#name` is replaced by the variable bound to the only node with this name and `#n` by the variable of node n; ambiguous, unknown, out-of-range or epsilon references are rejected; everything else in the body is left unchanged, at any nesting depth; every variable that is referenced is bound.", "quantifier": "every rule and constructor body", "why_tests_cant": "all nesting depths and rules", "anchors": ["parser_generator_impl/src/code_gen/constructor.rs"]}
{"id": "C41", "title": "Acceptance empties the stack", "statement": "When the generated parser accepts, exactly the root state remains on the stack and all input has been consumed.", "quantifier": "every grammar, every input", "why_tests_cant": "all runs", "anchors": ["src/parser_state.rs: verify_empty_stack", "parser_generator_impl/src/code_gen/state_action_builder.rs: accept_match_and_return"]}
{"id": "C42", "title": "An LR(1) grammar is never rejected", "statement": "If LRTable::build reports a conflict for a grammar without unproductive labels, then the grammar is not LR(1): there are two rightmost sentential forms with a common viable prefix and lookahead that require different parser actions.", "quantifier": "every grammar; in the rules only epsilons follow an epsilon and there is no end marker (so for every grammar of the macro, C38; for the rest see C78)", "why_tests_cant": "quantifies over all derivations", "anchors": ["lr_table/src/lr_table.rs: LRTable::build"]}
{"id": "C43", "title": "Reductions replay a rightmost derivation", "statement": "On an accepted input the sequence of reductions, reversed, is a rightmost derivation of the input from the root: the state stack always spells a viable prefix which derives the consumed input.", "quantifier": "every grammar, every accepted input, every intermediate configuration; in the rules only epsilons follow an epsilon and there is no end marker (so for every grammar of the macro, C38; for the rest see C78)", "why_tests_cant": "all runs", "anchors": ["lr_table/src/parse_simulator.rs: parse_stream"]}
{"id": "C44", "title": "Rules mixing epsilon with other nodes", "statement": "The lr_table API gives grammars with epsilon next to other nodes in a rule the language they denote.", "quantifier": "every grammar", "why_tests_cant": "all positions of epsilon", "anchors": ["lr_table/src/position.rs: next_node, advance", "lr_table/src/grammar.rs: from_grammar_str"]}
{"id": "C45", "title": "Conflict errors name the user's rules", "statement": "The rule numbers in a shift/reduce or reduce/reduce conflict message are positions in the grammar that the user wrote, and the rules at these positions are in conflict.", "quantifier": "every grammar with a conflict", "why_tests_cant": "all grammars and all orders of rules", "anchors": ["lr_table/src/error.rs: LRTableError", "lr_table/src/indexed_grammar.rs"]}
{"id": "C46", "title": "Expanding the macro ends without panicking", "statement": "Expanding grammar! on any tokens ends, with a parser or with a compile error; it does not loop and does not panic.", "quantifier": "every token stream", "why_tests_cant": "all token streams", "anchors": ["parser_generator_impl/src/lib.rs", "parser_generator_impl/src/annotated_grammar", "parser_generator_impl/src/code_gen/code_gen.rs"]}
{"id": "C47", "title": "Exactly which files become parsers", "statement": "grammar! returns a parser exactly for the token streams that are files of the grammar language, with consistent types, a root that is declared once and not referred to by its own rule, no undefined or unreachable labels, no conflicts, terminals that can be written as patterns, and correct constructors of all rules that are used.", "quantifier": "every token stream", "why_tests_cant": "both directions over all token streams", "anchors": ["parser_generator_impl/src/annotated_grammar", "parser_generator_impl/src/code_gen", "lr_table/src/lr_table.rs"]}
{"id": "C48", "title": "All constructors are checked", "statement": "If grammar! returns a parser then the constructors of all rules are correct: references resolve, and a typed rule without constructor has exactly one node.", "quantifier": "every token stream accepted by the macro", "why_tests_cant": "all grammars and rules", "anchors": ["parser_generator_impl/src/code_gen/constructor.rs", "parser_generator_impl/src/code_gen/state_action_builder.rs"]}
{"id": "C49", "title": "From the tokens of a grammar file to results", "statement": "For every grammar file for which grammar! returns a parser, the parser ends on every finite sequence of tokens without panic or undefined behaviour, returns only values of parse trees in the grammar of the file, and evaluates every sentence of this grammar.", "quantifier": "every token stream accepted by the macro, every constructor behaviour, every token sequence", "why_tests_cant": "composition of all stages over all inputs", "anchors": ["parser_generator_impl/src/lib.rs", "parser_generator_impl/src/code_gen", "src/parser.rs"]}
{"id": "C50", "title": "Generated code is well typed", "statement": "The code that grammar! returns keeps to the types that the grammar declares: the variable of a node has the type of its label, of the tokens, or of the data of the token; all arms of a match give the same type and none is repeated; the value of a reduction is stored in a state of the type of the label; a shift stores the token that was matched; the parser returns the type of the first label. With user code that keeps to these types, all data on the stack has the type of its state at all times, and a successful parse returns a value of the type of the first label.", "quantifier": "every token stream accepted by the macro, every well typed user code, every stream of tokens", "why_tests_cant": "the compiler checks only the parsers that were generated, not what the macro would generate for other grammars", "anchors": ["parser_generator_impl/src/code_gen/code_gen.rs", "parser_generator_impl/src/code_gen/reduce_rule.rs", "parser_generator_impl/src/code_gen/state_action_builder.rs", "parser_generator_impl/src/code_gen/constructor.rs"]}
{"id": "C51", "title": "Names in generated code", "statement": "Every name that the code returned by grammar! looks up is introduced by this code around that place or is one of a fixed list of names of Rust's prelude; every state it mentions is a declared variant of the enum of states, and states have different variants and functions. Code of the grammar file - types, patterns, constructors - means the same in the parser as where it was written: of the names that the parser introduces, it only sees names with the prefix reserved for this.", "quantifier": "every token stream accepted by the macro, every place in the generated code", "why_tests_cant": "a clash needs a particular name in the user's code", "anchors": ["parser_generator_impl/src/code_gen/util.rs", "parser_generator_impl/src/code_gen/code_gen.rs", "parser_generator_impl/src/code_gen/state_action_builder.rs", "parser_generator_impl/src/code_gen/states_enum.rs"]}
{"id": "C52", "title": "Paths to variants of tokens", "statement": "For every type that is accepted after enum_terminal, the paths to its variants in patterns and expressions of the parser are paths of Rust.", "quantifier": "every token stream accepted by the macro", "why_tests_cant": "depends on the form of the type, which the macro does not check", "anchors": ["parser_generator_impl/src/annotated_grammar/terminal.rs", "parser_generator_impl/src/annotated_grammar/parse_grammar.rs", "parser_generator_impl/src/code_gen/reduce_rule.rs"]}
{"id": "C53", "title": "Parsing takes linear time and space", "statement": "For every parser there is a constant K such that every input of n tokens is accepted or rejected within K*(n+1) iterations of the parsing loop, and the stack never holds more than K*(n+1) entries.", "quantifier": "every grammar without conflicts, every input, every user type and constructor; in the rules only epsilons follow an epsilon and there is no end marker (so for every grammar of the macro, C38; for the rest see C78)", "why_tests_cant": "a bound that is uniform in all inputs; chains of reductions without input (epsilon and unit rules) could be arbitrarily long", "anchors": ["lr_table/src/parse_simulator.rs: Parser::parse_stream", "parser_generator_impl/src/code_gen/parse_loop.rs", "src/parser_state.rs"]}
{"id": "C54", "title": "The generated Rust code does what the parser automaton says", "statement": "The tokens of parse_fallible that the macro emits, read as Rust code and executed - the loop, the function of each state, its match arms, the nested pops, constructor calls, gotos, `?` and `return` - give exactly the result, the side effects and the number of items read that the LR automaton prescribes; no variable is unbound, no match falls through and no unreachable_unchecked is reached. The declared types, variants, functions and TABLE_SIZE are those of the grammar.", "quantifier": "every grammar for which the macro generates a parser, every meaning of the user's patterns and constructors, every input stream, debug and release builds", "why_tests_cant": "expansions are only run on the grammars in the test suite; order of arms, shadowing of variables and early returns matter for all grammars and inputs", "anchors": ["parser_generator_impl/src/code_gen/parse_loop.rs: generate_parse_loop", "parser_generator_impl/src/code_gen/state_action_builder.rs: generate_actions", "parser_generator_impl/src/code_gen/reduce_rule.rs", "src/parser_state.rs", "src/parser_stream.rs"]}
{"id": "C55", "title": "Generated code is Rust code", "statement": "For every grammar file that grammar! accepts, the returned tokens are Rust declarations of a structure with the name given in the file, its parser, the enum of states and the functions of the states, provided that the types, patterns and constructors of the file are Rust code.", "quantifier": "every token stream accepted by the macro", "why_tests_cant": "rustc only reads the expansions of the grammars in the test suite; brackets, separators, semicolons and statement positions depend on the arms of every state", "anchors": ["parser_generator_impl/src/code_gen/code_gen.rs", "parser_generator_impl/src/code_gen/state_action_builder.rs", "parser_generator_impl/src/code_gen/states_enum.rs", "parser_generator_impl/src/ident.rs"]}
{"id": "C56", "title": "Alternatives of generated patterns bind the same variables", "statement": "In the code returned by grammar!, all alternatives of every pattern bind the same variables, as Rust requires (E0408), for every accepted grammar file whose own terminal patterns are Rust patterns.", "quantifier": "every token stream accepted by the macro, every state, every set of lookaheads of a reduction", "why_tests_cant": "the patterns in generated code are put together from the terminals on which a state shifts or reduces; the test suite has no pattern with alternatives or variables", "anchors": ["parser_generator_impl/src/annotated_grammar/terminal.rs: UserDefinedSymbol::as_pattern", "parser_generator_impl/src/code_gen/state_action_builder.rs: generate_actions"]}
{"id": "C57", "title": "A printed table shows the whole table", "statement": "Formatting an LR table built for a grammar never panics; the text has a column for end of stream and for every token, in order, and a line for each state, and from it every action and every goto can be read back, so that equal texts mean equal tables. The cells of one column stand below each other.", "quantifier": "every grammar for which a table is built; the header is aligned for at most 1000 tokens; in the rules only epsilons follow an epsilon", "why_tests_cant": "there are no tests of Display for tables; the widths and the chunks depend on the numbers of states, tokens and labels of every grammar", "anchors": ["lr_table/src/lr_table.rs: impl Display for LRTable", "lr_table/src/lr_table.rs: actions_iter, gotos_iter", "lr_table/src/vocabulary.rs: impl Display for AugmentedVocabToken"]}
{"id": "C58", "title": "A table accepts in one place and uses every symbol", "statement": "In a table built for a grammar exactly one state accepts, on end of stream only; every token of the grammar is shifted by some state and every label that occurs in a rule is the label of some goto; every state but the first is entered, and on one symbol only; the first state is never entered. Exactly one state function of a generated parser has an accepting arm.", "quantifier": "every grammar (epsilon only at the end of rules) for which a table is built; uniqueness of the accepting state when the root rule does not mention the root, which holds for every generated parser", "why_tests_cant": "the states of every grammar would have to be enumerated; tests compare a few tables", "anchors": ["lr_table/src/lr_table.rs: LRTable::build", "lr_table/src/kernel_table.rs", "parser_generator_impl/src/code_gen/state_action_builder.rs: accept_match_and_return"]}
{"id": "C59", "title": "Labels, tokens and errors can have any type", "statement": "In a grammar file that is accepted, the types of labels, of tokens and of errors can be replaced by other Rust types; the file is accepted as before, with the same grammar and the same table, and the macro knows the new types.", "quantifier": "every grammar file and every Rust type", "why_tests_cant": "types are arbitrary token sequences; tests only use a handful of short names", "anchors": ["parser_generator_impl/src/type_symbol.rs", "parser_generator_impl/src/symbol.rs: Operator, PunctBuilder::consume_next", "parser_generator_impl/src/symbol_stream.rs", "parser_generator_impl/src/annotated_grammar/parse_grammar.rs"]}
{"id": "C60", "title": "The names of tokens and labels do not matter", "statement": "Renaming the tokens and labels of a grammar, with different names for different symbols, gives the same LR table (or the same error about the renamed symbols), and the parser treats the renamed input as before. Renaming the labels of a grammar file, and the references to them in rules and constructors, does not change whether the macro accepts it nor a single token of the code it writes.", "quantifier": "every grammar, every token and label type, every renaming that keeps different names different, every input, every grammar file", "why_tests_cant": "tests use one set of names per grammar; a dependence on the order or spelling of names shows only for other names", "anchors": ["lr_table/src/indexed_grammar.rs", "lr_table/src/vocabulary.rs", "lr_table/src/lr_table.rs: LRTable::build", "lr_table/src/parse_simulator.rs", "parser_generator_impl/src/annotated_grammar/", "parser_generator_impl/src/code_gen/"]}
{"id": "C61", "title": "Parsers do what the LR(1) parser of the grammar does", "statement": "The generated parser, and the simulator, end as the textbook LR(1) parser of the grammar ends: they make the shifts and reductions that the valid LR(1) items of the viable prefix demand, they end with the value built on the way, with the first error of a constructor, or with `unexpected token` at the first token that no valid item allows, and they have pulled exactly the tokens up to there. On a stream that fails after some tokens they end before, or with that error as soon as the last token has been shifted. The textbook parser is defined from rightmost derivations alone, without states or tables.", "quantifier": "every grammar for which a table is built, every input (also streams that fail), every constructor (also failing ones)", "why_tests_cant": "tests compare a few inputs with expected values; the agreement with a machine defined by derivations is about all sentential forms of all grammars", "anchors": ["lr_table/src/lr_table.rs: LRTable::build", "lr_table/src/closure.rs", "lr_table/src/parse_simulator.rs", "parser_generator_impl/src/code_gen/"]}
{"id": "C62", "title": "The order of the rules does not matter", "statement": "Listing the rules of a grammar in another order (the root rule stays first) changes neither whether a table is built nor what any parser does: same acceptance, same value or error, same number of tokens pulled. The same holds for the rules of a grammar file given to the macro.", "quantifier": "every grammar, every permutation of its rules, every input, every constructor", "why_tests_cant": "tests fix one order per grammar; a dependence on the order shows only for particular grammars in particular orders", "anchors": ["lr_table/src/indexed_grammar.rs", "lr_table/src/first_map.rs: FirstTable::build", "lr_table/src/lr_table.rs: LRTable::build", "lr_table/src/parse_simulator.rs", "parser_generator_impl/src/code_gen/"]}
{"id": "C63", "title": "Generated code passes the compiler's checks of types, moves and borrows", "statement": "The code that the macro returns for an accepted grammar file type-checks: every expression has the type its place demands, no value is used after it was moved, no reference into the parser's state is used after the state was changed, every `match` is exhaustive, no name is declared twice, and every path through a function ends with a value of its return type; with debug assertions and without. This assumes that user code is what the grammar file says: variants exist with or without a field, patterns fit the field, constructors have the type of their label if their variables have the types of the nodes. Rules with a type and without constructor for nothing (C40) and keywords as names (C55) are excepted.", "quantifier": "every accepted grammar file, every user code that fits it, debug and release builds", "why_tests_cant": "each test grammar shows that rustc accepts the code for one grammar; whether code for every grammar is accepted (types of states, moves of variables in every constructor, arms of every match) is a statement about the generator", "anchors": ["parser_generator_impl/src/code_gen/reduce_rule.rs", "parser_generator_impl/src/code_gen/state_action_builder.rs", "parser_generator_impl/src/code_gen/parse_loop.rs", "parser_generator_impl/src/code_gen/states_enum.rs", "parser_generator_impl/src/code_gen/code_gen.rs: generate_parser", "src/parser_state.rs", "src/parser_stream.rs"]}
{"id": "C64", "title": "The text of an error says what is wrong", "statement": "The text of an error of lr_table (and so the message of the macro for it) determines the error: two grammars or files that get the same message have the same kind of error, with the same rule numbers, the same lookahead and the same labels (up to the order in which unreachable labels are listed).", "quantifier": "every two grammars that are refused by IndexedGrammar::build or LRTable::build, every two grammar files that the macro refuses with an error of lr_table, every order of the hash map of labels", "why_tests_cant": "tests compare single messages with what is expected; that no two different errors share a message ranges over all pairs of grammars", "anchors": ["lr_table/src/error.rs: Display for LRTableError, Display for BuildGrammarError", "lr_table/src/vocabulary.rs: Display for AugmentedVocabToken", "lr_table/src/indexed_grammar.rs: verify_connected", "parser_generator_impl/src/annotated_grammar/terminal.rs: Display for UserDefinedSymbol", "parser_generator_impl/src/annotated_grammar/production_ref.rs: Debug for ProductionRefName"]}
{"id": "C65", "title": "Errors of the macro point at what is wrong", "statement": "When the macro refuses a grammar file, the span of its error is where the mistake is. For errors of syntax: everything before the span begins some file, and what is at the span is no symbol or a symbol with which no file continues. For epsilon with other nodes: the first `!` of the first such rule. For types that disagree: the type of the first declaration that disagrees with an earlier one of its label. For an input that ends too early: its last symbol. Errors of lr_table concern the whole invocation, carry the text of lr_table, and come only for files of right syntax and consistent types.", "quantifier": "every token stream with every spans, every way in which spans can or cannot be joined, every classification of identifier characters, every printing of tokens", "why_tests_cant": "a test checks the span of one mistake; that the part before the span can always be continued to a file and the token at the span never can ranges over all inputs and all continuations", "anchors": ["parser_generator_impl/src/error.rs: ParserGeneratorError, intercept", "parser_generator_impl/src/symbol_stream.rs: SymbolStream, SymbolProxy", "parser_generator_impl/src/symbol.rs: tokenize, spans of symbols", "parser_generator_impl/src/annotated_grammar", "parser_generator_impl/src/type_symbol.rs"]}
{"id": "C66", "title": "Errors in constructors point at the wrong reference", "statement": "When the macro refuses a file that it could read, the file contains a mistake where the error says. Either the error is in the constructor of a rule of the file, at the name or number of the first reference (in reading order, also inside nested groups) that does not denote a node of the rule (at the `#` if no name or number follows), of the kind that fits, and the message tells the number of nodes or the number of the epsilon node; or a rule with a type and several nodes has no constructor, and the error is at the nodes of this rule; or tokens are not an enum and a terminal of the file is no literal, and the error is at the whole invocation.", "quantifier": "every token stream with every spans, every hash order, every lexer, every way in which spans can or cannot be joined", "why_tests_cant": "a test checks one constructor; that the reported reference is the first wrong one and that an error always stems from such a mistake ranges over all token trees, rules and hash orders", "anchors": ["parser_generator_impl/src/code_gen/constructor.rs: build_constructor, substitute_vars, lookup_label, literal_to_index", "parser_generator_impl/src/code_gen: propagation of errors", "parser_generator_impl/src/annotated_grammar/terminal.rs: as_literal", "parser_generator_impl/src/lib.rs: build_grammar"]}
{"id": "C67", "title": "Messages of syntax errors tell what can stand there", "statement": "The message of a syntax error is about the place the error points at. If what is there is no symbol of the language, the message names it (the identifier, the literal, the character or the two joined characters). If it is a symbol, the message says that it is unexpected or says what was expected; every symbol that it says was expected can be put there: what is before it and this symbol begin some file (up to the check of epsilon). The texts for misplaced epsilon and for types that disagree go with these errors only.", "quantifier": "every token stream with every spans, every lexer, every way in which spans can or cannot be joined, with the explanations that are appended to messages", "why_tests_cant": "a test compares one message of one file; that what a message offers is possible after every input with this error ranges over all files", "anchors": ["parser_generator_impl/src/symbol.rs: messages of the tokenizer", "parser_generator_impl/src/annotated_grammar: messages of the parsers", "parser_generator_impl/src/annotated_grammar/parse_grammar.rs: messages of options", "parser_generator_impl/src/error.rs: intercept"]}
{"id": "C68", "title": "Expanding a grammar again gives the same parser", "statement": "Whenever the macro is expanded on the same tokens, it returns the same code or reports the same error, so that builds are reproducible and a parser does not change its behaviour when the crate is compiled again.", "quantifier": "every token stream, every iteration order of the hash maps in two expansions, every input of the two parsers, debug and release builds", "why_tests_cant": "hash maps are seeded at random in every process; a test sees a few of the orders", "anchors": ["parser_generator_impl/src/code_gen/state_action_builder.rs: CollectLikeActions", "parser_generator_impl/src/code_gen/reduce_rule.rs: bind_production_nodes_to_locals, apply_goto", "lr_table/src/lr_state_map.rs"]}
{"id": "C69", "title": "The symbol stream of the macro is safe and reads in order", "statement": "However the parser of the macro calls expect_symbol, next, peek, peek_expect_symbol and SymbolProxy::take, the unchecked unwraps never see a missing symbol, no assertion fails, peeking shows the next symbol without consuming it, and every symbol is delivered once, in the order of the tokens, with at most one read ahead.", "quantifier": "every iterator of symbols (also ones that fail or go on after None), every adaptive sequence of calls, debug and release builds", "why_tests_cant": "undefined behaviour need not show in a test, and calls can be interleaved in unboundedly many ways", "anchors": ["parser_generator_impl/src/symbol_stream.rs: SymbolStreamImpl, SymbolProxy", "parser_generator_impl/src/symbol.rs: tokenize_from_stream"]}
{"id": "C70", "title": "No rule of an accepted grammar is dead", "statement": "If a grammar is accepted then every one of its rules takes part in parsing: there is an input that the parser accepts by way of a reduction by this rule, on which the constructor of the rule is run.", "quantifier": "every accepted grammar, every rule of it, every semantics of constructors, debug and release builds", "why_tests_cant": "a test can show one rule of one grammar to be of use; that no rule of any grammar is silently ignored is a statement on all of them", "anchors": ["lr_table/src/indexed_grammar.rs: build", "lr_table/src/parse_simulator.rs", "parser_generator_impl/src/code_gen/reduce_rule.rs"]}
{"id": "C71", "title": "Reading tokens and running constructors take turns in a fixed way", "statement": "The iterator given to parse_fallible may share state with the constructors (a lexer that consults what has been declared so far). A generated parser never panics or misbehaves on account of that. It asks for the first item at once, and for the next item as soon as a token is used up, before any constructor which that token completes; constructors run from left to right, children before parents. The value returned is that of a parse tree read in this way; an error is the first failure met in this way, and after it nothing is read and no constructor runs. Conversely (no action missing from the table, disjoint patterns) a parse tree that can be read in this way up to the end of the input is returned.", "quantifier": "every generated parser, every iterator and all constructors over a shared state that both may read and change, debug and release builds", "why_tests_cant": "a test fixes one iterator and one set of constructors; the interleaving matters only for those that interfere with each other, and there are arbitrarily many ways to interfere", "anchors": ["src/parser_stream.rs: ParserStream::new, advance", "src/parser.rs: parse_fallible", "parser_generator_impl/src/code_gen/state_action_builder.rs", "parser_generator_impl/src/code_gen/parse_loop.rs"]}
{"id": "C72", "title": "Adding rules to a grammar keeps what was accepted", "statement": "Let a grammar be extended by further rules, the root rule staying as it is, and let both grammars be accepted. Then every input accepted before is still accepted, with the same parse tree, the same value and the same effects of the constructors; on sentences of the old grammar both parsers do the same; a parse error is not reported earlier than before. Conversely, leaving out rules of an accepted grammar does not give rise to a conflict.", "quantifier": "every accepted grammar and every extension of it (the new rules at any place after the root rule), every input, all constructors", "why_tests_cant": "a regression by a new rule shows only on old inputs nobody thinks of as related to it; all pairs of grammars and all inputs", "anchors": ["lr_table/src/lr_table.rs: LRTable::build", "lr_table/src/first_map.rs: FirstTable::build_from_grammar, propagate_map", "lr_table/src/parse_simulator.rs", "parser_generator_impl/src/code_gen"]}
{"id": "C73", "title": "The text of a failed parse says why and at which token it failed", "statement": "When the error of parse or parse_fallible is printed with {} or {:?}, the text tells what happened. It begins with \"Failed to parse: unexpected \" exactly if the input was rejected; it then ends in None if the input had ended, else in Some(...) with the Debug text of the token last pulled, the first that does not fit what was read before. It begins with \"Token \" exactly if two patterns of the grammar match the token last pulled, which is named. Every other text is that of the user error.", "quantifier": "every accepted grammar, every stream, all constructors, every Debug of tokens and Display or Debug of user errors", "why_tests_cant": "all grammars, inputs and texts that users give to their tokens and errors", "anchors": ["src/error.rs: Display for ParserError, Debug for ParserError, NoUserErrorType", "parser_generator_impl/src/code_gen/state_action_builder.rs: overlapping_token_matchers"]}
{"id": "C74", "title": "Generated parsers use no moved value and no reference to what has changed", "statement": "While a generated parser runs, no variable is used after its value was moved out of it, no shared reference into the parser's state (the state on top of the stack, the item read ahead) is used after a state was pushed or popped or the stream was advanced, and no exclusive reference is used after the parser's state was used otherwise. An interpreter that stops at each such use comes to the same end as one that does not.", "quantifier": "every accepted grammar file for which the code compiles, every stream, all constructors and conversions, with and without debug assertions", "why_tests_cant": "all grammars, inputs and states; a test runs code that has compiled and cannot see uses that did not happen", "anchors": ["parser_generator_impl/src/code_gen/state_action_builder.rs: generate_actions, generate_state_action_function, shift_match_and_yield, reduce_match_and_return", "parser_generator_impl/src/code_gen/code_gen.rs: parse_fallible", "src/parser_state.rs: state, pop_state, push", "src/parser_stream.rs: peek_next, advance"]}
{"id": "C75", "title": "derive(ParserUserError) makes a type an error type", "statement": "For an error type that implements Error and Clone, derive(ParserUserError) adds what is needed to use it: it can be the error_type of a grammar, parse compiles, and streams can be parsed whose errors are of this type, cannot happen, or have a From impl (and are Error and Clone), and no others. Each error is converted in exactly one way, an error of the type itself stays what it is. The derive compiles for every such type that has no From<Infallible> impl of its own.", "quantifier": "every crate with every set of impls, every error type, every type of stream errors", "why_tests_cant": "tests compile three fixed error types; the claim is about the trait impls of all crates, and what does not compile cannot be tested at run time", "anchors": ["parser-user-error/src/lib.rs: build_user_error_impl", "src/error.rs: ParserUserError, ParserUserErrorOrInfallible, NoUserErrorType", "src/parser.rs: Parser"]}
{"id": "C76", "title": "With the rules in the right order the parser is right", "statement": "The rules of a grammar (file) after the root rule can be listed in an order for which the FIRST sets are complete: a table is built exactly if the grammar has no LR(1) conflict, and the parser accepts exactly the sentences of the grammar. The macro accepts the file with its rules in this order exactly if labels, types, terminals and the constructors of reduced rules are correct and there is no LR(1) conflict; its parser then returns the value of the parse tree (or the error of the first constructor to fail) for every sentence and accepts nothing else. It is enough that each label that can vanish has a rule of labels that can vanish and are listed before it. Such an order exists exactly if a token is in sight: it begins a rule, or stands in a rule that is not the root rule behind labels that can vanish, each of which is the label of the rule or vanishes without its rules.", "quantifier": "every grammar and every grammar file, every input, every constructor", "why_tests_cant": "the order has to exist for every grammar; tests fix grammars and orders", "anchors": ["lr_table/src/first_map.rs: FirstTable::propagate_map, build_from_grammar", "lr_table/src/indexed_grammar.rs: build_from_grammar", "lr_table/src/lr_table.rs: LRTable::build", "lr_table/src/parse_simulator.rs", "parser_generator_impl/src/lib.rs: grammar"]}
{"id": "C77", "title": "A parser is right exactly when its table has every LR(1) action", "statement": "If a table is built, the parser accepts every sentence of the grammar and the grammar is unambiguous, exactly if the table has every action that the LR(1) parser of the grammar has with the true FIRST sets. So whenever an action is missing, there is a sentence that is rejected, or one that has two parse trees. For generated parsers with disjoint patterns and constructors that do not fail, the same with \"returns a value for every sentence\". It is enough that the FIRST sets are complete for what follows a label in a rule.", "quantifier": "every grammar whose labels all derive something, every generated parser with disjoint patterns, every input; in the rules only epsilons follow an epsilon and there is no end marker (so for every grammar of the macro, C38; for the rest see C78)", "why_tests_cant": "the sentence that shows a missing action has to be found for every grammar and every missing action", "anchors": ["lr_table/src/first_map.rs: FirstTable::propagate_map", "lr_table/src/lr_table.rs: LRTable::build, generate_actions", "lr_table/src/parse_simulator.rs: parse_stream", "parser_generator_impl/src/code_gen"]}
{"id": "C78", "title": "Parsers of grammars in text form are sound, return and do not panic", "statement": "For every text that Grammar::from_grammar_str accepts and for whose grammar Parser::new succeeds, parse_stream returns for every input, without a panic, and returns true only for sentences of the grammar.", "quantifier": "every grammar text, every input", "why_tests_cant": "for all grammars and all inputs; a parser that never returns cannot be told from a slow one", "anchors": ["lr_table/src/grammar.rs: Grammar::from_grammar_str", "lr_table/src/position.rs: Position::advance, next_node", "lr_table/src/parse_simulator.rs: Parser::parse_stream"]}
{"id": "C79", "title": "FixedSizeSet is a set and FixedSizeMap a total map of labels, and the map can be printed", "statement": "After any insertions of labels below the capacity, FixedSizeSet::has answers true exactly for the inserted labels, and full exactly when every id below the capacity was inserted. FixedSizeMap::new_with_constructor calls the constructor once for each id, in order; afterwards get returns for each label its initial value with exactly the changes made through get_mut for that label, in order. Debug of a FixedSizeMap prints every entry, in the order of the ids. Debug of a SparseFixedSizeMap prints the entries that are present, in the order of their first use.", "quantifier": "every label type with injective ids, every capacity, every sequence of insertions or changes below the capacity, every constructor with state", "why_tests_cant": "for all sequences of operations and all label types", "anchors": ["lr_table/src/fixed_map.rs: FixedSizeSet, FixedSizeMap, Debug for FixedSizeMap, Label for u8"]}
{"id": "C80", "title": "Every state and every item has a text of its own", "statement": "When a table is built for a grammar, no two states have kernels with the same Display text, and two items of states have the same text only if they have the same rule, place of the dot and follow set. So what the code prints for debugging identifies states and items. The text says what it should: its numbers are the rule, the place of the dot and the ids of the follow set in increasing order, item after item.", "quantifier": "every grammar for which a table is built, every two of its states, every two of their items", "why_tests_cant": "for all grammars and all pairs of states", "anchors": ["lr_table/src/position.rs: Display and Debug for Position", "lr_table/src/kernel.rs: Display for Kernel", "lr_table/src/vocabulary.rs: Display for VocabSet"]}
{"id": "C81", "title": "A grammar gets a parser exactly if it is LR(1)", "statement": "LRTable::build gives a table for a grammar without unproductive labels exactly if the grammar is LR(1) in Knuth's sense, which speaks of rightmost derivations only: after the same symbols and with the same next token, two rightmost sentential forms have the same handle. Otherwise it reports a conflict. Each rightmost sentential form of such a grammar has one rightmost derivation only.", "quantifier": "every grammar that passes validation and whose labels are productive; in the rules only epsilons follow an epsilon and there is no end marker (so for every grammar of the macro, C38)", "why_tests_cant": "quantifies over all grammars and all pairs of derivations", "anchors": ["lr_table/src/lr_table.rs: LRTable::build", "lr_table/src/first_map.rs: FirstTable::build_from_grammar"]}
{"id": "C82", "title": "Every label of an accepted grammar can be the root", "statement": "Let a grammar be accepted, and take one of its labels l instead of the root: a new root rule whose right side is l, and the rules of the labels that can be reached from l. This grammar is accepted too. Its parser accepts what l derives, and the value it returns is the value l's tree has in the old grammar, passed through the constructor of the new root rule. So parts of a grammar can be tried out on their own.", "quantifier": "every accepted grammar with productive labels, every label of it, the rules in any order, every input, all constructors", "why_tests_cant": "what follows the label in the old grammar is replaced by the end of the input, which changes all lookaheads; all grammars, labels and inputs", "anchors": ["lr_table/src/lr_table.rs: LRTable::build", "lr_table/src/indexed_grammar.rs: IndexedGrammar::build", "lr_table/src/first_map.rs", "lr_table/src/parse_simulator.rs", "parser_generator_impl/src/code_gen"]}
{"id": "C83", "title": "Every LL(1) grammar becomes a parser", "statement": "If the grammar is LL(1) in the sense of the textbooks (by FIRST and FOLLOW, never two rules of a label for one lookahead) and every label derives something, building never reports a conflict: there is a table, and a grammar file with such a grammar becomes a parser unless its types, labels, terminals or constructors are wrong. The grammar is unambiguous, and the parser accepts exactly its sentences. So grammars written for recursive descent can be used as they are.", "quantifier": "every LL(1) grammar with productive labels, every input", "why_tests_cant": "all LL(1) grammars, including rules that derive the empty string, whose lookaheads come from other rules", "anchors": ["lr_table/src/lr_table.rs: LRTable::build", "lr_table/src/first_map.rs", "lr_table/src/parse_simulator.rs", "parser_generator_impl/src/lib.rs: grammar, build_grammar"]}
{"id": "C84", "title": "Grammars for yacc and other LALR(1) tools become parsers", "statement": "If the grammar is LR(0), SLR(1) or LALR(1) in the sense of the textbooks and every label derives something, building never reports a conflict: there is a table, and a grammar file with such a grammar becomes a parser unless its types, labels, terminals or constructors are wrong. The parser accepts exactly the sentences. More grammars are accepted than these.", "quantifier": "every LALR(1) grammar with productive labels, every input", "why_tests_cant": "all LALR(1) grammars; states that such tools merge are kept apart here", "anchors": ["lr_table/src/lr_table.rs: LRTable::build", "lr_table/src/kernel.rs", "lr_table/src/parse_simulator.rs", "parser_generator_impl/src/lib.rs: grammar, build_grammar"]}
{"id": "C85", "title": "Well-known mistakes in grammars are noticed", "statement": "A grammar, or a grammar file, is refused if a rule is given twice, if a label is in some steps a name for itself (A -> B, B -> A, also with neighbours that can vanish), if a label has a rule that ends with it and a rule that begins with it (E -> E + E; E -> - E | E + n), or if a rule ends with its label and another rule goes on after it (S -> if S | if S else S). Such grammars are ambiguous and not LR(1).", "quantifier": "every grammar with productive labels and one of these mistakes at any label", "why_tests_cant": "all grammars around the mistake, which decide on the lookaheads on which a conflict must be seen", "anchors": ["lr_table/src/lr_table.rs: LRTable::build", "lr_table/src/first_map.rs", "parser_generator_impl/src/lib.rs: grammar, build_grammar"]}
{"id": "C86", "title": "Left recursion is parsed in constant stack space", "statement": "If no label of the grammar comes back to itself through a mention that is not the first symbol of a rule, then at every moment of parsing the stack has at most 1 + M * N entries, where M is the length of the longest rule and N the number of labels. This holds for the simulator and for generated parsers, for inputs of any length, also for endless streams and for streams that depend on the constructors.", "quantifier": "every such grammar, every input or stream, every meaning of patterns and constructors, every moment of the run", "why_tests_cant": "inputs of unbounded length and endless streams; a test sees the stack for the inputs it tries", "anchors": ["lr_table/src/parse_simulator.rs: Parser::parse_stream", "parser_generator_impl/src/code_gen/code_gen.rs: generated parse_fallible"]}
{"id": "C87", "title": "Any other recursion needs a stack that grows", "statement": "If some label comes back to itself through a mention that is not the first symbol of a rule, then for every number n there is a sentence of the language during whose parsing the stack has more than n entries.", "quantifier": "every such grammar, every n", "why_tests_cant": "sentences have to be found for all grammars and all n", "anchors": ["lr_table/src/parse_simulator.rs: Parser::parse_stream", "parser_generator_impl/src/code_gen/code_gen.rs: generated parse_fallible"]}
{"id": "C88", "title": "One change of the FIRST table makes the table construction right", "statement": "If adding an epsilon in FirstTable::propagate_map counted as a change (first_map.rs:47-49), then for all grammars: the FIRST sets are exactly those of the definition; LRTable::build gives a table exactly if the grammar has no LR(1) conflict and the root is not mentioned where it overlaps, i.e. for grammars without unproductive labels exactly if it is LR(1); the parser accepts exactly the sentences; grammars that get a parser are unambiguous; nothing changes for the grammars whose FIRST sets are right now, and no parser that is right now is lost. The same for parsers generated from such a table: they end on every finite stream, in linear time, whatever the patterns; with disjoint patterns they evaluate every sentence, return values for sentences only, and report the first item that no sentence goes on with. Moreover every LL(1) and every LALR(1) grammar without unproductive labels gets a right parser; a conflict is reported for every such grammar with one of the mistakes of C85; every label that the root reaches can be made the root; the order of the rules does not matter; adding rules keeps what was accepted. The simulator and generated parsers do what the LR(1) parser of the textbook does; every rule of a grammar whose labels derive something is of use; the stack of the simulator is bounded exactly if all recursion is left recursion.", "quantifier": "every grammar, every input", "why_tests_cant": "the absence of further causes of missing actions, for all grammars", "anchors": ["lr_table/src/first_map.rs:47-49 FirstTable::propagate_map", "lr_table/src/lr_table.rs: LRTable::build", "lr_table/src/parse_simulator.rs: Parser", "parser_generator_impl/src/code_gen/parse_loop.rs: generate_parse_loop"]}
{"id": "C89", "title": "An accepted input takes one step per token and per node of its tree", "statement": "When an input is accepted, the loop of parse_stream, and that of a generated parser, has been run exactly once for every token and once for every node of the parse tree. Nothing is done twice and no iteration is lost.", "quantifier": "every grammar that gets a parser, every accepted input or stream, every meaning of patterns and constructors", "why_tests_cant": "the number of iterations is not visible from outside, and inputs have any length", "anchors": ["lr_table/src/parse_simulator.rs: Parser::parse_stream", "parser_generator_impl/src/code_gen/parse_loop.rs: generate_parse_loop", "parser_generator_impl/src/code_gen/state_action_builder.rs"]}
{"id": "C90", "title": "Deeply nested input does not deepen the calls of a generated parser", "statement": "A generated parser never has more than one active call of its own functions besides parse_fallible: the functions for the states call none of each other and have no loops, and the only loop is the one of parse_fallible. So nesting of the input costs room on the parser's own stack (a Vec) and not on that of the thread.", "quantifier": "every grammar that gets a parser, every stream, every meaning of patterns and constructors, any number of iterations", "why_tests_cant": "inputs can be nested to any depth; a test shows a depth at which there is no overflow", "anchors": ["parser_generator_impl/src/code_gen/state_action_builder.rs: generate_actions", "parser_generator_impl/src/code_gen/parse_loop.rs: generate_parse_loop", "src/parser_state.rs: ParserState"]}
{"id": "C91", "title": "grammar! and pub_grammar! differ in the word pub only", "statement": "For the same tokens, pub_grammar! expands to what grammar! expands to with the word pub in front of the structure, or to the same compile error with the same message at the same place. Every invocation becomes the code of a parser or one compile error (the message and place of the error that stopped it), except for the files of C46, for which both macros panic.", "quantifier": "all tokens given to the macro", "why_tests_cant": "a test invokes one macro on one file; whether the other macro would treat every file alike is about all files, those with errors included", "anchors": ["parser_generator_impl/src/lib.rs: grammar, pub_grammar, build_grammar, Visibility", "parser_generator_impl/src/error.rs: abort", "parser_generator_impl/src/code_gen/code_gen.rs: maybe_pub"]}
{"id": "C92", "title": "Types and constructors do not influence what is parsed", "statement": "If the macro accepts a grammar file, it accepts the file with all types, constructors and the error type removed. On every finite sequence of tokens the two parsers both accept or both reject at the same token after reading as many tokens, unless a constructor of the first fails. The same holds for two parsers for the same rules with any types and constructors, on two inputs of which the tokens stand for the same terminals. More generally two parsers for the same rules whose constructors do corresponding things to corresponding values return corresponding results.", "quantifier": "all grammar files the macro accepts, all sequences of tokens of which none stands for two terminals, all relations between values, errors and worlds that the constructors keep", "why_tests_cant": "independence from constructors compares all constructors and all inputs; a test compares two parsers on one input", "anchors": ["parser_generator_impl/src/code_gen/constructor.rs: build_constructor", "parser_generator_impl/src/code_gen/state_action_builder.rs: reduce_match_and_return, accept_match_and_return", "parser_generator_impl/src/annotated_grammar/parse_grammar.rs: parse_grammar", "src/parser.rs: parse_fallible"]}
{"id": "C93", "title": "How rules are grouped into declarations does not matter", "statement": "The macro returns the same parser or the same error for two grammar files with the same options and the same sequence of rules, however the rules are grouped into declarations; in particular alternatives separated by | can be written as declarations of their own, with the same type.", "quantifier": "all pairs of grammar files with the same options and the same rules in the same order, at least one", "why_tests_cant": "there are exponentially many groupings of any sequence of rules, and errors have to agree too", "anchors": ["parser_generator_impl/src/annotated_grammar/production_rule.rs: parse, parse_rule", "parser_generator_impl/src/annotated_grammar/label_type_map.rs: add", "parser_generator_impl/src/annotated_grammar/parse_grammar.rs: parse_grammar"]}
{"id": "C94", "title": "A token that no terminal stands for stops the parser", "statement": "A generated parser never reads past a token that matches no terminal of its grammar: it has ended before it takes the token from the iterator, or it returns the parse error for this token at once. So no input with such a token has a value, what comes after the token does not matter, and even endless streams with one are parsed in finitely many steps where C03 holds. The simulator rejects every input with a token that is in no rule.", "quantifier": "all generated parsers, builds, patterns, streams (also endless ones) and positions of the token", "why_tests_cant": "streams are endless, and what is read before the token is arbitrary", "anchors": ["parser_generator_impl/src/code_gen/parse_loop.rs: generate_parse_loop", "lr_table/src/parse_simulator.rs: Parser::parse_stream"]}
{"id": "C95", "title": "Alternatives that begin with different tokens do not get in each other's way", "statement": "Let the root be `S -> M` and the rules of `M` be `M -> k l`, each with another token `k`. If for each alternative the grammar with root `l` is accepted, then the whole grammar is accepted. The parser accepts exactly the token of an alternative followed by what this alternative accepts. A generated parser returns what the constructors of the alternative and of the root make of the token and the value of the rest.", "quantifier": "all grammars of this form with any number of alternatives, whatever labels and rules the alternatives share, and all inputs", "why_tests_cant": "that no conflict arises between any two alternatives of any grammars is not a matter of samples", "anchors": ["lr_table/src/lr_table.rs: LRTable::build", "lr_table/src/parse_simulator.rs: Parser::parse_stream", "parser_generator_impl/src/code_gen/parse_loop.rs: generate_parse_loop"]}
{"id": "C96", "title": "Parts that are closed by a token of their own can be developed separately", "statement": "Let the root be `S -> M`, let the rules of `M` begin with different tokens if there are several, and let each label in them be the last symbol or be followed by a token that is not used below this label (as in `M -> let Pattern = Expr ; | do Block end`). If the grammars with these labels as roots are accepted one by one, then the whole grammar is accepted: no conflict arises from putting them together.", "quantifier": "all grammars of this form, with any number of alternatives of any length, whatever labels and rules the parts share", "why_tests_cant": "that no two parts of any such grammar conflict is a statement about all grammars and all prefixes of inputs", "anchors": ["lr_table/src/lr_table.rs: LRTable::build", "lr_table/src/first_map.rs", "lr_table/src/parse_simulator.rs: Parser::new"]}
{"id": "C97", "title": "Making a list of something that is accepted causes no conflict", "statement": "Let the root be `S -> X` and the rules of `X` be `X -> !` and `X -> X Item end`, where the token `end` is not used below `Item` (as in a list of statements that each end in a semicolon). If the grammar with `Item` as root is accepted, then the grammar of the lists is accepted; its parser accepts just the sequences of items that are each followed by `end`, so that of two accepted inputs, one after the other is accepted too.", "quantifier": "all grammars of this form, whatever rules the items have, and all inputs", "why_tests_cant": "that no list of any kind of items conflicts is a statement about all grammars, and the accepted lists are of any length", "anchors": ["lr_table/src/lr_table.rs: LRTable::build", "lr_table/src/first_map.rs", "lr_table/src/parse_simulator.rs: Parser::new"]}
{"id": "C98", "title": "The constructors of a list run once for each item, from left to right", "statement": "Let a grammar file have the rules `S => X`, `X => !` and `X => X Item End`, with `End` not used below `Item`. A value that the generated parser returns is made thus: the constructor of the empty list runs first; then, for each item in the order of the input, the constructors of the item run, and the constructor of the longer list gets the value so far, the value of the item and the closing token; at last the constructor of the root runs. On inputs of this form nothing else happens: the result is this value, or the first error of a constructor, which stops the parser.", "quantifier": "all grammar files of this form, all constructors with effects of any kind, all streams of tokens", "why_tests_cant": "lists have any length, and the order of effects is fixed for all constructors, not only for those of a test", "anchors": ["parser_generator_impl/src/code_gen/reduce_rule.rs", "parser_generator_impl/src/code_gen/constructor.rs", "parser_generator_impl/src/code_gen/parse_loop.rs: generate_parse_loop", "lr_table/src/lr_table.rs: LRTable::build"]}
{"id": "C99", "title": "Separating items by a token of its own causes no conflict", "statement": "Let the root be `S -> X` and the rules of `X` be `X -> Item` and `X -> X sep Item`, where the token `sep` is not used below `Item` (as in a list of arguments, or a new level of left-associative operators above existing ones). If the grammar with `Item` as root is accepted, then the grammar of the lists is accepted; its parser accepts just the nonempty sequences of items with `sep` between them.", "quantifier": "all grammars of this form, whatever rules the items have (they may derive the empty sequence), and all inputs", "why_tests_cant": "that no list of any kind of items conflicts is a statement about all grammars, and the accepted lists are of any length", "anchors": ["lr_table/src/lr_table.rs: LRTable::build", "lr_table/src/first_map.rs", "lr_table/src/parse_simulator.rs: Parser::new"]}
{"id": "C100", "title": "Rules with the label on the left associate to the left", "statement": "Let a grammar file have the rules `S => X`, `X => Item` and `X => X Sep Item`, with `Sep` not used below `Item`. A value that the generated parser returns for `i1 Sep i2 Sep i3 ...` is `((i1) Sep i2) Sep i3 ...`: the items are evaluated from left to right, and after each of them the constructor of the longer list runs once, on the value so far, the separating token and the value of the item. On inputs of this form the result is this value, or the first error of a constructor, which stops the parser.", "quantifier": "all grammar files of this form, all constructors with effects of any kind, all streams of tokens", "why_tests_cant": "lists have any length, and the order of effects is fixed for all constructors, not only for those of a test", "anchors": ["parser_generator_impl/src/code_gen/reduce_rule.rs", "parser_generator_impl/src/code_gen/constructor.rs", "parser_generator_impl/src/code_gen/parse_loop.rs: generate_parse_loop", "lr_table/src/lr_table.rs: LRTable::build"]}
{"id": "C101", "title": "Lists may be written with the label on the right", "statement": "Let the root be `S -> X` and the rules of `X` be `X -> Item` and `X -> Item sep X`, where the token `sep` is not used below `Item`. If the grammar with `Item` as root is accepted, then the grammar of the lists is accepted; its parser accepts just the nonempty sequences of items with `sep` between them, the same as for `X -> X sep Item`.", "quantifier": "all grammars of this form, whatever rules the items have (they may derive the empty sequence), and all inputs", "why_tests_cant": "that no list of any kind of items conflicts is a statement about all grammars, and the accepted lists are of any length", "anchors": ["lr_table/src/lr_table.rs: LRTable::build", "lr_table/src/first_map.rs", "lr_table/src/parse_simulator.rs: Parser::new"]}
{"id": "C102", "title": "Rules with the label on the right associate to the right", "statement": "Let a grammar file have the rules `S => X`, `X => Item` and `X => Item Sep X`, with `Sep` not used below `Item`. A value that the generated parser returns for `i1 Sep i2 Sep i3` is `i1 Sep (i2 Sep (i3))`: the items are evaluated from left to right, and only then the constructors of the list run, from the last item to the first, each on the value of the item, the token after it and the value so far. On inputs of this form the result is this value, or the first error of a constructor, which stops the parser.", "quantifier": "all grammar files of this form, all constructors with effects of any kind, all streams of tokens", "why_tests_cant": "lists have any length, and the order of effects is fixed for all constructors, not only for those of a test", "anchors": ["parser_generator_impl/src/code_gen/reduce_rule.rs", "parser_generator_impl/src/code_gen/constructor.rs", "parser_generator_impl/src/code_gen/parse_loop.rs: generate_parse_loop", "lr_table/src/lr_table.rs: LRTable::build"]}
{"id": "C103", "title": "Something can be made optional just if it is never empty", "statement": "Let the root be `S -> X` and the rules of `X` be `X -> !` and `X -> Part`, where `X` is not used below `Part`, and let the grammar with `Part` as root be accepted. If `Part` does not derive the empty sequence, then the grammar is accepted and its parser accepts just the empty input and what `Part` derives. If `Part` derives the empty sequence, then the grammar is refused.", "quantifier": "all grammars of this form, whatever rules the part has, and all inputs", "why_tests_cant": "it is a statement about all grammars; whether a part can be empty may depend on any number of rules", "anchors": ["lr_table/src/lr_table.rs: LRTable::build", "lr_table/src/first_map.rs", "lr_table/src/parse_simulator.rs: Parser::new"]}
{"id": "C104", "title": "Anything can be put in any number of brackets", "statement": "Let the root be `S -> X` and the rules of `X` be `X -> Part` and `X -> ( X )`, where the two bracket tokens differ and are not used below `Part`, and let the grammar with `Part` as root be accepted. Then the grammar is accepted, and its parser accepts just what `Part` derives with as many opening brackets before it as closing brackets after it.", "quantifier": "all grammars of this form, whatever rules the part has, any number of brackets, and all inputs", "why_tests_cant": "it is a statement about all grammars and any depth of nesting", "anchors": ["lr_table/src/lr_table.rs: LRTable::build", "lr_table/src/first_map.rs", "lr_table/src/parse_simulator.rs: Parser::new, parse_stream"]}
{"id": "C105", "title": "The constructors of brackets run from the inside out, once for each pair", "statement": "Let a generated parser have the root `S => X` and the rules `X => Part` and `X => Open X Close` as in C104. For an input that is the part in any number of brackets, the parser evaluates the part, runs the constructor of `X => Part`, then that of `X => Open X Close` once for each pair from the innermost to the outermost, with the opening token, the value so far and the closing token of that pair, and then the constructor of the root; it returns the last value, or the first error of a constructor. Every value it returns arises in this way.", "quantifier": "all such grammar files, all constructors, any number of brackets, and all streams of tokens", "why_tests_cant": "it is a statement about all constructors with effects and any depth of nesting", "anchors": ["parser_generator_impl/src/code_gen/reduce_rule.rs", "parser_generator_impl/src/code_gen/constructor.rs", "parser_generator_impl/src/code_gen/parse_loop.rs: generate_parse_loop", "lr_table/src/lr_table.rs: LRTable::build"]}
{"id": "C106", "title": "The value of something optional", "statement": "Let a generated parser have the root `S => X` and the rules `X => !` and `X => Part` as in C103. For the empty input it runs the constructor of `X => !` without arguments; for an input of the part it evaluates the part and gives its value to the constructor of `X => Part`; then it runs the constructor of the root. It returns the last value, or the first error of a constructor. Every value it returns arises in this way.", "quantifier": "all such grammar files, all constructors, and all streams of tokens", "why_tests_cant": "it is a statement about all grammars and all constructors with effects", "anchors": ["parser_generator_impl/src/code_gen/reduce_rule.rs", "parser_generator_impl/src/code_gen/constructor.rs", "parser_generator_impl/src/code_gen/parse_loop.rs: generate_parse_loop", "lr_table/src/lr_table.rs: LRTable::build"]}
{"id": "C107", "title": "Anything can get a prefix operator", "statement": "Let the root be `S -> X` and the rules of `X` be `X -> Part` and `X -> Op X`, where the token `Op` is not used below `Part`, and let the grammar with `Part` as root be accepted. Then the grammar is accepted, and its parser accepts just what `Part` derives, after any number of the token `Op`.", "quantifier": "all grammars of this form, whatever rules the part has, any number of operators, and all inputs", "why_tests_cant": "it is a statement about all grammars and any number of operators", "anchors": ["lr_table/src/lr_table.rs: LRTable::build", "lr_table/src/first_map.rs", "lr_table/src/parse_simulator.rs: Parser::new, parse_stream"]}
{"id": "C108", "title": "Prefix operators apply from the operand outwards", "statement": "Let a generated parser have the root `S => X` and the rules `X => Part` and `X => Op X` as in C107. For an input that is the part after any number of operators, the parser evaluates the part, runs the constructor of `X => Part`, then that of `X => Op X` once for each operator from right to left, with the token of that operator and the value so far, and then the constructor of the root; it returns the last value, or the first error of a constructor. Every value it returns arises in this way.", "quantifier": "all such grammar files, all constructors, any number of operators, and all streams of tokens", "why_tests_cant": "it is a statement about all constructors with effects and any number of operators", "anchors": ["parser_generator_impl/src/code_gen/reduce_rule.rs", "parser_generator_impl/src/code_gen/constructor.rs", "parser_generator_impl/src/code_gen/parse_loop.rs: generate_parse_loop", "lr_table/src/lr_table.rs: LRTable::build"]}
{"id": "C109", "title": "Anything can get a postfix operator", "statement": "Let the root be `S -> X` and the rules of `X` be `X -> Part` and `X -> X Op`, where the token `Op` is not used below `Part`, and let the grammar with `Part` as root be accepted. Then the grammar is accepted, and its parser accepts just what `Part` derives, before any number of the token `Op`.", "quantifier": "all grammars of this form, whatever rules the part has, any number of operators, and all inputs", "why_tests_cant": "it is a statement about all grammars and any number of operators", "anchors": ["lr_table/src/lr_table.rs: LRTable::build", "lr_table/src/first_map.rs", "lr_table/src/parse_simulator.rs: Parser::new, parse_stream"]}
{"id": "C110", "title": "Postfix operators apply from the operand outwards", "statement": "Let a generated parser have the root `S => X` and the rules `X => Part` and `X => X Op` as in C109. For an input that is the part before any number of operators, the parser evaluates the part, runs the constructor of `X => Part`, then that of `X => X Op` once for each operator from left to right, with the value so far and the token of that operator, and then the constructor of the root; it returns the last value, or the first error of a constructor. Every value it returns arises in this way.", "quantifier": "all such grammar files, all constructors, any number of operators, and all streams of tokens", "why_tests_cant": "it is a statement about all constructors with effects and any number of operators", "anchors": ["parser_generator_impl/src/code_gen/reduce_rule.rs", "parser_generator_impl/src/code_gen/constructor.rs", "parser_generator_impl/src/code_gen/parse_loop.rs: generate_parse_loop", "lr_table/src/lr_table.rs: LRTable::build"]}
