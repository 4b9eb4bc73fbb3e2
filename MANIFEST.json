{"claims": [
 {"property": "C01", "status": "proved", "theorems": ["Verif.C01.accepts_only_sentences"], "note": "Hypothesis WellFormed g: only epsilons follow an epsilon in a rule, no end-of-stream marker in rules. Simulator Parser::parse_stream; generated parser: see C18."},
 {"property": "C02", "status": "partial", "theorems": ["Verif.C02.accepts_all_sentences_partial", "Verif.C02.accepts_all_sentences_refuted"], "note": "FINDING: false in general, S->Y B; Y->!; B->A a; A->! rejects its only sentence (incomplete FIRST sets, first_map.rs:49). Proved when no action is missing from the table (C07.ActionsComplete; in particular when the computed FIRST sets are complete; exact by C77). Hypothesis WellFormed g: only epsilons follow an epsilon in a rule, no end-of-stream marker in rules. "},
 {"property": "C03", "status": "partial", "theorems": ["Verif.C03.parse_terminates", "Verif.C03.generated_terminates_partial", "Verif.C03.generated_terminates_refuted"], "note": "Simulator: proved (hypothesis WellFormed g: only epsilons follow an epsilon in a rule, no end-of-stream marker in rules). Generated parsers: false in builds that do not report overlapping patterns (release builds, literal terminals): a token that matches two patterns can make a parser whose table lacks actions (C07) push symbols for ever (generated_terminates_refuted). Proved if overlaps are reported (debug build, enum terminals), or patterns are disjoint, or no action is missing (C07.ActionsComplete), whatever overlaps in the last case."},
 {"property": "C04", "status": "proved", "theorems": ["Verif.C04.parse_never_panics"], "note": "Hypothesis WellFormed g: only epsilons follow an epsilon in a rule, no end-of-stream marker in rules. "},
 {"property": "C05", "status": "partial", "theorems": ["Verif.C05.unambiguous_partial", "Verif.C05.unambiguous_refuted"], "note": "FINDING: false in general, an ambiguous grammar for which the table is built is given (same FIRST defect). Proved when no action is missing from the table (C07.ActionsComplete; in particular when the computed FIRST sets are complete; exact by C77). Hypothesis WellFormed g: only epsilons follow an epsilon in a rule, no end-of-stream marker in rules. "},
 {"property": "C06", "status": "proved", "theorems": ["Verif.C06.first_sound"], "note": ""},
 {"property": "C07", "status": "partial", "theorems": ["Verif.C07.first_complete_refuted", "Verif.C07.first_complete_iff_stable", "Verif.C07.first_complete_if_stable_partial", "Verif.C07.first_complete_if_not_nullable_partial", "Verif.C07.first_complete_if_directly_nullable_partial"], "note": "The property is false: when a label becomes nullable in a round without any other change, the fixpoint loop stops early (first_map.rs:49). Refuted with a concrete grammar; completeness holds exactly when one more round changes nothing (first_complete_iff_stable), in particular when no production is nullable, and when every nullable production has an empty rule and some rule begins with a token."},
 {"property": "C08", "status": "proved", "theorems": ["Verif.C08.build_terminates", "Verif.C08.closure_terminates"], "note": ""},
 {"property": "C09", "status": "partial", "theorems": ["Verif.C09.build_never_panics_partial", "Verif.C09.build_returns_table_or_conflict", "Verif.C09.build_panics", "Verif.C09.build_panics_exactly_partial", "Verif.C09.rightRoot_builds", "Verif.C09.middleRoot_panics", "Verif.C09.panic_or_conflict"], "note": "False as stated: `S -> S a` passes validation and panics (build_panics). Exact for grammars whose epsilons are last: the construction panics only if the root rule names its own label first or where a token may follow (FIRST sets as recorded), it never returns a table then, and without a conflict the panic is certain. Never panics when the root rule does not mention the root label."},
 {"property": "C10", "status": "proved", "theorems": ["Verif.C10.empty_refused", "Verif.C10.build_succeeds_iff", "Verif.C10.build_error", "Verif.C10.build_returns"], "note": ""},
 {"property": "C100", "status": "partial", "theorems": ["Verif.C100.generated_value", "Verif.C100.generated_evaluated_partial", "Verif.C100.generated_evaluated_refuted", "Verif.C100.generated_evaluated_repaired"], "note": "False in general: generated_evaluated_refuted, a list that the generated parser refuses because actions are missing (C07). generated_value (every returned value is the left fold) is unconditional. Missing in generated_evaluated_partial: grammars with missing actions and overlapping patterns. generated_evaluated_repaired is for the code with the repair of C88: there only overlapping patterns are excepted."},
 {"property": "C101", "status": "partial", "theorems": ["Verif.C101.lr1_iff", "Verif.C101.language_iff", "Verif.C101.list_accepted_partial", "Verif.C101.list_accepted_refuted", "Verif.C101.accepts_only", "Verif.C101.list_decides_partial", "Verif.C101.accepts_append_partial", "Verif.C101.list_repaired"], "note": "False in general: list_accepted_refuted. Missing: grammars with missing actions (C07). lr1_iff, language_iff and accepts_only are unconditional; list_repaired is for the code with the repair of C88."},
 {"property": "C102", "status": "partial", "theorems": ["Verif.C102.generated_value", "Verif.C102.generated_evaluated_partial", "Verif.C102.generated_evaluated_refuted", "Verif.C102.generated_evaluated_repaired"], "note": "False in general: generated_evaluated_refuted, a list that the generated parser refuses because actions are missing (C07). generated_value (every returned value is the right fold) is unconditional. Missing in generated_evaluated_partial: grammars with missing actions and overlapping patterns. generated_evaluated_repaired is for the code with the repair of C88: there only overlapping patterns are excepted."},
 {"property": "C103", "status": "partial", "theorems": ["Verif.C103.lr1_iff", "Verif.C103.language_iff", "Verif.C103.optional_accepted_partial", "Verif.C103.optional_accepted_refuted", "Verif.C103.nullable_refused_partial", "Verif.C103.nullable_refused_refuted", "Verif.C103.accepts_only", "Verif.C103.optional_decides_partial", "Verif.C103.optional_repaired"], "note": "False in general, both ways: optional_accepted_refuted (a conflict is reported), nullable_refused_refuted (an ambiguous grammar gets a parser). Missing: grammars with missing actions (C07). lr1_iff, language_iff and accepts_only are unconditional; optional_repaired is for the code with the repair of C88."},
 {"property": "C104", "status": "partial", "theorems": ["Verif.C104.lr1_iff", "Verif.C104.language_iff", "Verif.C104.brackets_accepted_partial", "Verif.C104.brackets_accepted_refuted", "Verif.C104.accepts_only", "Verif.C104.brackets_decides_partial", "Verif.C104.accepts_wrapped_partial", "Verif.C104.brackets_repaired"], "note": "False in general: brackets_accepted_refuted (a conflict is reported). Missing: grammars with missing actions (C07). lr1_iff, language_iff and accepts_only are unconditional; brackets_repaired is for the code with the repair of C88."},
 {"property": "C105", "status": "partial", "theorems": ["Verif.C105.generated_value", "Verif.C105.generated_evaluated_partial", "Verif.C105.generated_evaluated_refuted", "Verif.C105.generated_evaluated_repaired"], "note": "generated_value (every value returned arises so) is unconditional. That inputs of this form are evaluated is false in general: generated_evaluated_refuted (the generated parser refuses `Open Plus Close`). Missing: grammars with missing actions (C07) and overlapping patterns. generated_evaluated_repaired is for the code with the repair of C88: there only overlapping patterns are excepted."},
 {"property": "C106", "status": "partial", "theorems": ["Verif.C106.generated_value", "Verif.C106.generated_evaluated_partial", "Verif.C106.generated_evaluated_refuted", "Verif.C106.generated_evaluated_repaired"], "note": "generated_value (every value returned arises so) is unconditional. That inputs of this form are evaluated is false in general: generated_evaluated_refuted (the generated parser refuses `Plus`). Missing: grammars with missing actions (C07) and overlapping patterns. generated_evaluated_repaired is for the code with the repair of C88: there only overlapping patterns are excepted."},
 {"property": "C107", "status": "partial", "theorems": ["Verif.C107.lr1_iff", "Verif.C107.language_iff", "Verif.C107.prefixed_accepted_partial", "Verif.C107.prefixed_accepted_refuted", "Verif.C107.accepts_only", "Verif.C107.prefixed_decides_partial", "Verif.C107.accepts_prefixed_partial", "Verif.C107.prefixed_repaired"], "note": "False in general: prefixed_accepted_refuted (a conflict is reported). Missing: grammars with missing actions (C07). lr1_iff, language_iff and accepts_only are unconditional; prefixed_repaired is for the code with the repair of C88."},
 {"property": "C108", "status": "partial", "theorems": ["Verif.C108.generated_value", "Verif.C108.generated_evaluated_partial", "Verif.C108.generated_evaluated_refuted", "Verif.C108.generated_evaluated_repaired"], "note": "generated_value (every value returned arises so) is unconditional. That inputs of this form are evaluated is false in general: generated_evaluated_refuted (the generated parser refuses `Not Plus`). Missing: grammars with missing actions (C07) and overlapping patterns. generated_evaluated_repaired is for the code with the repair of C88: there only overlapping patterns are excepted."},
 {"property": "C109", "status": "partial", "theorems": ["Verif.C109.lr1_iff", "Verif.C109.language_iff", "Verif.C109.postfixed_accepted_partial", "Verif.C109.postfixed_accepted_refuted", "Verif.C109.accepts_only", "Verif.C109.postfixed_decides_partial", "Verif.C109.accepts_postfixed_partial", "Verif.C109.postfixed_repaired"], "note": "False in general: postfixed_accepted_refuted (a conflict is reported). Missing: grammars with missing actions (C07). lr1_iff, language_iff and accepts_only do not need complete actions; postfixed_repaired is for the code with the repair of C88."},
 {"property": "C11", "status": "proved", "theorems": ["Verif.C11.rules_are_productions", "Verif.C11.productions_occur_once", "Verif.C11.renaming_injective", "Verif.C11.labels_contiguous_in_order", "Verif.C11.root_is_zero", "Verif.C11.labels_in_order_of_appearance", "Verif.C11.grouped_not_renumbered"], "note": ""},
 {"property": "C110", "status": "partial", "theorems": ["Verif.C110.generated_value", "Verif.C110.generated_evaluated_partial", "Verif.C110.generated_evaluated_refuted", "Verif.C110.generated_evaluated_repaired"], "note": "generated_value (every value returned arises so) needs neither complete actions nor disjoint patterns. That inputs of this form are evaluated is false in general: generated_evaluated_refuted (the generated parser refuses `Plus Bang`). Missing: grammars with missing actions (C07) and overlapping patterns. generated_evaluated_repaired is for the code with the repair of C88: there only overlapping patterns are excepted."},
 {"property": "C12", "status": "proved", "theorems": ["Verif.C12.token_ids_dense_bijection", "Verif.C12.for_each_id"], "note": ""},
 {"property": "C13", "status": "partial", "theorems": ["Verif.C13.conflict_error_iff", "Verif.C13.conflict_error_names", "Verif.C13.conflict_error_iff_lr1_partial", "Verif.C13.conflict_missed", "Verif.C13.conflict_error_iff_user", "Verif.C13.conflict_error_iff_lr1_user_partial", "Verif.C13.table_iff"], "note": "Exact with respect to the FIRST sets the code computes, for every root rule (table_iff); with the true FIRST sets it is false (conflict_missed) and proved when no action is missing on account of those sets (C07.ActionsComplete)."},
 {"property": "C14", "status": "proved", "theorems": ["Verif.C14.table_well_formed"], "note": "That the end of stream is not shifted is for grammars without end marker in their rules, as the quantifier says; everything else for all grammars."},
 {"property": "C15", "status": "proved", "theorems": ["Verif.C15.states_are_item_sets"], "note": ""},
 {"property": "C16", "status": "proved", "theorems": ["Verif.C16.state_map_resolves", "Verif.C16.state_map_order_irrelevant", "Verif.C16.sampleLR_map"], "note": "Holds for every table that can be built (no well-formedness needed) and for every iteration order of the hash maps."},
 {"property": "C17", "status": "proved", "theorems": ["Verif.C17.generated_never_fails", "Verif.C17.parse_never_fails"], "note": "Any stream, any fuel, any iteration order of the hash maps; a run is either unfinished or ends normally. Panics, failed debug assertions and undefined behaviour are explicit outcomes of the model."},
 {"property": "C18", "status": "proved", "theorems": ["Verif.C18.ok_is_value_of_tree"], "note": "The specification (Spec/Eval.lean) evaluates a parse tree of the user's grammar bottom up; the theorem covers debug and release builds."},
 {"property": "C19", "status": "partial", "theorems": ["Verif.C19.sentences_are_evaluated_partial", "Verif.C19.sentences_are_evaluated_refuted"], "note": "FINDING: false in general, the parser generated for S=>Y B; Y=>!; B=>A X; A=>! rejects its only sentence (incomplete FIRST sets, see C07). Proved for tables with no action missing (C07.ActionsComplete, exact by C77) and patterns that do not overlap."},
 {"property": "C20", "status": "proved", "theorems": ["Verif.C20.generated_and_simulator_agree"], "note": "A rejected input may also end in a user error, if a constructor fails before the offending token is reached."},
 {"property": "C21", "status": "partial", "theorems": ["Verif.C21.read_is_prefix", "Verif.C21.rejected_is_no_prefix_partial", "Verif.C21.rejected_is_no_prefix_refuted", "Verif.C21.generated_read_is_prefix", "Verif.C21.generated_rejected_is_no_prefix_partial"], "note": "First half proved for grammars without unproductive labels. FINDING: second half false in general (FIRST defect); proved when no action is missing (C07.ActionsComplete). Simulator. Hypothesis WellFormed g: only epsilons follow an epsilon in a rule, no end-of-stream marker in rules. "},
 {"property": "C22", "status": "proved", "theorems": ["Verif.C22.no_reduction_before_rejection", "Verif.C22.generated_no_constructor_before_rejection"], "note": "Simulator: hypothesis WellFormed g (only epsilons follow an epsilon in a rule, no end-of-stream marker in rules). Generated parsers: in every build, whatever patterns overlap."},
 {"property": "C23", "status": "proved", "theorems": ["Verif.C23.user_error_is_first_failure", "Verif.C23.other_errors_without_failure"], "note": "ConstructorFails: all constructors before the failing one (bottom up, left to right) succeeded on the same world state."},
 {"property": "C24", "status": "proved", "theorems": ["Verif.C24.stream_error_when_reached", "Verif.C24.unpulled_items_do_not_matter", "Verif.C24.items_after_error_do_not_matter"], "note": ""},
 {"property": "C25", "status": "proved", "theorems": ["Verif.C25.parse_is_parse_fallible", "Verif.C25.parse_user_error"], "note": ""},
 {"property": "C26", "status": "proved", "theorems": ["Verif.C26.one_token_ahead", "Verif.C26.result_depends_on_pulled"], "note": ""},
 {"property": "C27", "status": "proved", "theorems": ["Verif.C27.hash_order_does_not_matter"], "note": "For every fuel, so also for runs that do not end."},
 {"property": "C28", "status": "proved", "theorems": ["Verif.C28.overlap_is_reported", "Verif.C28.release_is_debug"], "note": "Stated for every state of a run; terminals given as literals are not checked by the code, hence the restriction to enums."},
 {"property": "C29", "status": "proved", "theorems": ["Verif.C29.bitset_is_finite_set", "Verif.C29.merge_reports_growth", "Verif.C29.equal_iff_same_members", "Verif.C29.out_of_range_panics"], "note": ""},
 {"property": "C30", "status": "proved", "theorems": ["Verif.C30.sparse_map_is_partial_map"], "note": ""},
 {"property": "C31", "status": "proved", "theorems": ["Verif.C31.partition_exact", "Verif.C31.category_ids"], "note": ""},
 {"property": "C32", "status": "partial", "theorems": ["Verif.C32.usize_roundtrip", "Verif.C32.token_roundtrip", "Verif.C32.option_roundtrip", "Verif.C32.u8_roundtrip_partial", "Verif.C32.u8_255_panics", "Verif.C32.ids_injective"], "note": "The u8 instance panics in debug builds on byte 255 (off-by-one assertion), so the property holds for every other byte only."},
 {"property": "C33", "status": "proved", "theorems": ["Verif.C33.kernel_ignores_order", "Verif.C33.kernel_keeps_items", "Verif.C33.interning", "Verif.C33.interning_wf", "Verif.C33.states_have_distinct_items"], "note": ""},
 {"property": "C34", "status": "proved", "theorems": ["Verif.C34.closure_exact", "Verif.C34.closure_is_item_set"], "note": ""},
 {"property": "C35", "status": "proved", "theorems": ["Verif.C35.parses_exactly", "Verif.C35.ok_or_error", "Verif.C35.rejects_exactly", "Verif.C35.unambiguous", "Verif.C35.bad_line_rejected", "Verif.C35.missing_arrow_rejected", "Verif.C35.bad_label_rejected", "Verif.C35.round_trip"], "note": "from_grammar_str returns rules exactly for the texts of Spec/GrammarText.lean (all other texts are errors, never panics); printing any grammar and reading it back gives the same grammar. Strings are lists of characters; the standard library functions that are called (lines, split_once, trim, split_ascii_whitespace) are modelled."},
 {"property": "C36", "status": "proved", "theorems": ["Verif.C36.exact", "Verif.C36.lexes_tokens", "Verif.C36.tokens_kept", "Verif.C36.unambiguous", "Verif.C36.all_ok_or_error", "Verif.C36.rejects_exactly", "Verif.C36.tokenize_append", "Verif.C36.arrow_exactly", "Verif.C36.scope_exactly", "Verif.C36.joint_needed"], "note": "For every token stream whose joint punctuation is followed by punctuation (which is what Spacing::Joint means): tokenisation succeeds exactly on streams that are concatenations of symbols, the symbols are unique and their tokens concatenate to the input; `=>` and `::` exactly when adjacent. joint_needed: without the condition a trailing `=` is dropped."},
 {"property": "C37", "status": "proved", "theorems": ["Verif.C37.round_trip", "Verif.C37.accepts_exactly", "Verif.C37.accepted_is_file", "Verif.C37.file_is_accepted", "Verif.C37.unambiguous", "Verif.C37.outcomes", "Verif.C37.rejects"], "note": "round_trip: the printed form of every file that can be written (PrintableFile) is read back as that file. accepts_exactly: the accepted token streams are exactly those of files of the grammar language (an inductive syntax) with consistent types whose grammar and table can be built; the file is unique. Concrete file: Verif.GrammarSample."},
 {"property": "C38", "status": "proved", "theorems": ["Verif.C38.epsilon_alone", "Verif.C38.epsilonAlone", "Verif.C38.mixed_rejected"], "note": "For every macro input that is accepted; mixed_rejected: a syntactically correct rule with an epsilon among several nodes is an error."},
 {"property": "C39", "status": "proved", "theorems": ["Verif.C39.types_consistent", "Verif.C39.lookup_total", "Verif.C39.inconsistent_rejected"], "note": "Types are compared by their printed text, as in the code."},
 {"property": "C40", "status": "proved", "theorems": ["Verif.C40.provided_exact", "Verif.C40.ok_or_error", "Verif.C40.variables_differ", "Verif.C40.references_resolve", "Verif.C40.bad_references_rejected", "Verif.C40.references_bound", "Verif.C40.default_bound", "Verif.C40.default_unbound_refuted"], "note": "Rewriting of constructor bodies is exactly the relation Spec.Replaced; every variable introduced is bound in the arm of the generated parser. Found: a typed epsilon rule without constructor makes the macro emit code with an unbound variable (default_unbound_refuted); default_bound says this is the only case."},
 {"property": "C41", "status": "proved", "theorems": ["Verif.C41.accept_empties_stack"], "note": ""},
 {"property": "C42", "status": "proved", "theorems": ["Verif.C42.conflict_not_lr1"], "note": "For the user's grammar (not only the indexed one), Knuth's condition stated with rightmost derivations. Hypotheses: WellFormed, all labels productive."},
 {"property": "C43", "status": "proved", "theorems": ["Verif.C43.stack_derives_input", "Verif.C43.reductions_are_rightmost_derivation"], "note": "Simulator. Hypothesis WellFormed g: only epsilons follow an epsilon in a rule, no end-of-stream marker in rules. "},
 {"property": "C44", "status": "partial", "theorems": ["Verif.C44.trailing_epsilon_partial", "Verif.C44.mixed_epsilon_refuted"], "note": "FINDING: false, S->A; A->! a rejects its only sentence a. Proved: with epsilons only at the end of rules and no action missing (C07.ActionsComplete) the parser decides exactly the language."},
 {"property": "C45", "status": "partial", "theorems": ["Verif.C45.conflict_rules_partial", "Verif.C45.conflict_rules_grouped_partial", "Verif.C45.conflict_rules_refuted"], "note": "The numbers are positions in the regrouped grammar; through the recorded renumbering they name rules of the user's grammar that are in conflict. If the productions of each label stand next to each other they are positions in the user's grammar. Otherwise they can be wrong: proved for a concrete grammar."},
 {"property": "C46", "status": "partial", "theorems": ["Verif.C46.macro_outcomes_partial", "Verif.C46.stops_no_parser", "Verif.C46.macro_panics_refuted"], "note": "Termination for all tokens; panics only for a root rule that mentions the root and for a character used as a variant of an enum, and such files never give a parser. That the macro panics for one of them is proved."},
 {"property": "C47", "status": "proved", "theorems": ["Verif.C47.macro_succeeds_iff", "Verif.C47.good_of_ok", "Verif.C47.used_iff", "Verif.C47.buildConstructor_iff"], "note": "Conflicts are with respect to the FIRST sets that the code records (see C07 for how these relate to the true ones)."},
 {"property": "C48", "status": "partial", "theorems": ["Verif.C48.constructors_checked_partial", "Verif.C48.constructors_checked_refuted"], "note": "Holds if every label derives some sequence of terminals and no action is missing (C07.ActionsComplete). A grammar with a label that derives nothing for which a wrong constructor is accepted is given."},
 {"property": "C49", "status": "partial", "theorems": ["Verif.C49.macro_generated", "Verif.C49.macro_sound", "Verif.C49.macro_complete_partial"], "note": "Soundness and safety for all files without typed epsilon rules lacking a constructor (generated code for these does not compile, see C40); termination moreover needs that overlapping patterns are reported or impossible or that no action is missing (C03 has the refutation without); completeness where no action is missing (C07.ActionsComplete) and patterns disjoint (see C19 for the refutation without)."},
 {"property": "C50", "status": "proved", "theorems": ["Verif.C50.macro_typed", "Verif.C50.step_typed", "Verif.C50.result_typed"], "note": "Typing rules for generated code are in Spec/Typing.lean. Types are the token streams of the grammar; what Rust makes of them (and of user code) is a parameter `has`."},
 {"property": "C51", "status": "partial", "theorems": ["Verif.C51.closed", "Verif.C51.states_declared", "Verif.C51.items_differ", "Verif.C51.pattern_names", "Verif.C51.hygiene_partial", "Verif.C51.types_in_functions", "Verif.GrammarSample.hygiene_refuted"], "note": "closed/states_declared/items_differ settle the first half for files without typed epsilon rules that have no constructor (those are C40's finding). The second half is false: hygiene_refuted; hygiene_partial lists exactly what user code can see; pattern_names: the scopes overlook no name of a pattern of the grammar file."},
 {"property": "C52", "status": "partial", "theorems": ["Verif.C52.paths_partial", "Verif.C52.paths_refuted"], "note": "False for generic types, paths_refuted; true for all types that are themselves paths of expressions."},
 {"property": "C53", "status": "partial", "theorems": ["Verif.C53.simulator_linear", "Verif.C53.generated_linear_partial", "Verif.C53.generated_stack_partial", "Verif.C53.generated_linear_refuted"], "note": "Iterations of the loop and entries of the stack are at most K*(n+1) for n tokens, K depending on the parser only. One iteration pops at most the longest right side. Proved for the simulator, and for generated parsers unless patterns overlap, an action is missing and there is no debug check for overlaps; without the condition false: a release build that never returns (generated_linear_refuted). With overlapping patterns the machine is not deterministic; the proof shows that each of its runs is a run on some choice of terminals (Proof/Mixed, steps_choose)."},
 {"property": "C54", "status": "proved", "theorems": ["Verif.C54.emitted_tokens_run", "Verif.C54.emitted_code_refines", "Verif.C54.emitted_code_never_fails", "Verif.C54.functions_length"], "note": "Spec/RustSyntax is a recursive descent parser for the fragment of Rust (items, statements, expressions, patterns, paths) with keywords and Rust's rule for expression statements; Spec/Rust an interpreter that knows nothing of grammars. For every program the macro generates, reading the emitted tokens and running the function read equals running the model (result, side effects, items read, for every fuel). Splices of user code are single tokens for the reader; C55 treats names that are keywords. References are tracked with Rust's binding modes and `mut`, lifetimes and moves are not; names bound by user patterns are not passed to constructors (C51 lists them)."},
 {"property": "C55", "status": "partial", "theorems": ["Verif.C55.syntax_partial", "Verif.C55.syntax_refuted", "Verif.C55.keyword_unreadable", "Verif.RustSyntax.Reads.unique"], "note": "False for grammars whose name is a keyword: `name: match;` is accepted and expands to `struct match;` (syntax_refuted). True for all others (syntax_partial). Types, patterns and constructors of the file are single tokens for the reader."},
 {"property": "C56", "status": "partial", "theorems": ["Verif.C56.patterns_agree_partial", "Verif.C56.patterns_agree_iff", "Verif.C56.alternatives_disagree", "Verif.GrammarSample.alternatives_refuted", "Verif.GrammarSample.lookahead_refuted"], "note": "The full statement is false (finding 11): Num(1 | 2) as terminal gives a pattern that binds wildcard_var in its first alternative only, wherever it is shifted; and a lookahead pattern with a variable beside another lookahead. Proved for files whose patterns have no | outside of groups and bind nothing; for patterns without | the exact condition is proved."},
 {"property": "C57", "status": "proved", "theorems": ["Verif.C57.print_read", "Verif.C57.print_injective", "Verif.C57.print_aligned", "Verif.C57.print_header", "Verif.C57.print_determines"], "note": "Texts are lists of characters; Nat.toDigits stands for the formatting of integers. print_header and print_determines are for grammars whose rules have epsilon only at the end (all grammars of the macro); the others for all grammars, where columns without actions are not printed."},
 {"property": "C58", "status": "proved", "theorems": ["Verif.C58.accepts_somewhere", "Verif.C58.accepts_once", "Verif.C58.tokens_shifted", "Verif.C58.labels_used", "Verif.C58.root_unused", "Verif.C58.entered_on_one_symbol", "Verif.C58.generated_accepts_once"], "note": "accepts_once needs that the root rule does not mention the root; an example shows that this cannot be dropped. Every generated parser meets it (generated_accepts_once)."},
 {"property": "C59", "status": "partial", "theorems": ["Verif.C59.types_replaced_partial", "Verif.C59.accepts_exactly_plain", "Verif.C59.type_rejected", "Verif.C59.foreign_rejected", "Verif.C59.map_rejected", "Verif.C59.staticStr_rejected", "Verif.C59.nested_accepted"], "note": "The statement fails: type_rejected shows that a file in which a type with two generic arguments, a reference, a lifetime, a pointer, `+`, `->`, `Item = T` or a numeric argument stands outside parentheses and brackets is rejected with an error; map_rejected and staticStr_rejected are concrete files (HashMap<K, V>, &'static str). types_replaced_partial shows the statement for the other types (paths, one generic argument, tuples, arrays, `!`, dyn), accepts_exactly_plain that these are exactly the types that are accepted. Missing: the other types; types with macros, closures' lifetimes (`for<'a>`) and const expressions are not in the specification RustType. ConsistentTypes (all declarations of a label have one type) is needed, see C38."},
 {"property": "C60", "status": "proved", "theorems": ["Verif.C60.grammar_names", "Verif.C60.table_names", "Verif.C60.library_names", "Verif.C60.parse_names", "Verif.C60.macro_names", "Verif.C60.written_names"], "note": "Library: the indexed grammar, the table, the error and every run of the parser are those of the original with new names (injective on the symbols that occur). Macro: for files related by an injective renaming of labels, acceptance and the emitted code are identical, for every order of hash maps. Renaming tokens at the level of the macro changes patterns in the code and is covered only at the level of the library."},
 {"property": "C61", "status": "partial", "theorems": ["Verif.C61.generated_is_lr1", "Verif.C61.generated_is_lr1_partial", "Verif.C61.broken_is_lr1", "Verif.C61.broken_is_lr1_partial", "Verif.C61.simulator_is_lr1", "Verif.C61.simulator_is_lr1_partial", "Verif.C61.generated_is_lr1_refuted"], "note": "Refuted for the textbook parser because FIRST sets can be incomplete (finding 1): generated_is_lr1_refuted is a grammar with a table where the LR(1) parser ends with a value and the generated parser rejects. generated_is_lr1_partial, broken_is_lr1_partial and simulator_is_lr1_partial show the statement when no action is missing (C07.ActionsComplete). generated_is_lr1, broken_is_lr1 and simulator_is_lr1 hold for every grammar, with the LR(1) parser that uses the FIRST sets the code computed. The theorems called broken_ are for streams that fail after some tokens: the error is returned right after the last token has been shifted, with no further constructor run, unless the parser ends before. Missing: tables that lack actions; the statement is false for some of them."},
 {"property": "C62", "status": "partial", "theorems": ["Verif.C62.build_order", "Verif.C62.first_order_partial", "Verif.C62.table_order_partial", "Verif.C62.simulator_order_partial", "Verif.C62.generated_order_partial", "Verif.C62.macro_order_partial", "Verif.C62.macro_parsers_order_partial", "Verif.C62.table_order_refuted", "Verif.C62.generated_order_refuted", "Verif.C62.same_actions_weaker"], "note": "Refuted because FIRST sets can depend on the order of the rules (finding 13): table_order_refuted is a grammar with a table that is refused in another order, generated_order_refuted one where the two parsers disagree on an input. build_order (acceptance by IndexedGrammar::build) holds for every grammar; the _partial theorems hold when both orders demand the same actions (SameActions), which follows from the same FIRST sets (SameFirstSets.actions) and from no action missing in either order (sameActions_of_complete), and is weaker (same_actions_weaker). Missing: orders with different actions; the statement is false for some of them."},
 {"property": "C63", "status": "proved", "theorems": ["Verif.C63.checks", "Verif.C63.strict_fits", "Verif.C63.default_refuted"], "note": "Spec/Check is a type and borrow checker for the fragment of Rust that is emitted, written without the generator: types, moves, shared and exclusive references into the parser's state, exhaustive matches, code that is not reached. `checks` reads the emitted tokens with the reader of C54 and shows that the checker accepts what was read, for all user code with `UserFits`. `strict_fits`: such user code exists for every grammar. `default_refuted`: without the exception for C40 the checker rejects the code for a concrete grammar. Examples show wrong code that is rejected: a value moved twice or in a loop, a reference used after the state was changed, a move out of a reference, a missing arm, wrong types."},
 {"property": "C64", "status": "partial", "theorems": ["Verif.C64.text_kind", "Verif.C64.text_unique_partial", "Verif.C64.macro_text_unique", "Verif.C64.text_unique_refuted", "Verif.C64.text_order"], "note": "False for lr_table in general: a token printed `$` cannot be told from the end of the input (text_unique_refuted, two grammars of characters). Proved if tokens and labels of the two grammars do not look alike, no token is printed `$` and no label contains a comma; for the macro this always holds (macro_text_unique; quotes, dollar signs, commas and parentheses are not part of identifiers, no pattern but the wildcard is printed `..`). text_order: the order of unreachable labels in the message is that of a hash map."},
 {"property": "C65", "status": "partial", "theorems": ["Verif.C65.same_outcomes", "Verif.C65.kinds", "Verif.C65.syntax_error", "Verif.C65.epsilon_error", "Verif.C65.type_error", "Verif.C65.table_error", "Verif.C65.symbol_place", "Verif.C65.end_error_partial", "Verif.C65.end_place_refuted"], "note": "Model with spans and messages (Model/Located), shown to erase to the model the other claims use (same_outcomes). Proved: the eight kinds of errors; errors of syntax, of epsilon, of types and of lr_table are where the statement says (what precedes an error of syntax begins a file up to the check that epsilon is alone, which comes at the end of a rule). Refuted by a witness (end_place_refuted): when the input ends too early the error need not be at the last symbol, since expect_symbol does not update current_span; proved instead (end_error_partial): the whole input begins some file, and the span is the call site or that of some symbol of the input."},
 {"property": "C66", "status": "proved", "theorems": ["Verif.C66.same_outcomes", "Verif.C66.code_error", "Verif.C66.badRef_unique", "Verif.C66.badRef_iff", "Verif.C66.badRef_kind"], "note": "Model of the code generator with spans and messages (Model/LocatedGen), shown to erase to the model the other claims use (same_outcomes). code_error: the three cases of the statement, with the rule found among the symbols of the file (RuleIn) and the constructor among its tokens. badRef_unique, badRef_iff: the first wrong reference is unique, and there is one exactly if not all references denote nodes. Which of several mistakes in different rules is reported depends on hash order."},
 {"property": "C67", "status": "proved", "theorems": ["Verif.C67.syntax_message", "Verif.C67.other_message"], "note": "syntax_message: place, what is there and what the message offers, with the table of messages Spec/LocatedText.offered; a message that offers nothing begins with \"Unexpected token\". other_message: epsilon and types. A message need not list everything that could follow (after `<S>` also `:` is possible, but only `=>` is offered). The explanations appended by intercept are not part of the claim."},
 {"property": "C68", "status": "partial", "theorems": ["Verif.C68.expansion_partial", "Verif.C68.refused", "Verif.C68.debug_results_partial", "Verif.C27.hash_order_does_not_matter", "Verif.C68.expansion_refuted", "Verif.C68.error_refuted", "Verif.C68.release_results_refuted"], "note": "False as stated, for code, errors and results: expansion_refuted (tokens of Rust differ), error_refuted (another error), release_results_refuted (in a release build an input that matches two patterns gets another value). What holds: the same files are accepted, with the same table, states and types, and the code is the same up to the order of arms, of alternatives over states and of the patterns in the debug check (expansion_partial, refused); debug builds with an enum of tokens have the same results (debug_results_partial), and so have all builds if no token matches two patterns (C27)."},
 {"property": "C69", "status": "proved", "theorems": ["Verif.C69.answered_in_order", "Verif.C69.reads_one_ahead", "Verif.C69.tokens_in_order", "Verif.C69.as_list"], "note": "For every iterator and every adaptive user the stream answers as a position in the sequence of items does; nothing panics or is undefined. The tokenizer as an iterator gives the symbols of the list model, and so the stream over it behaves as the list of Model/Located (used in C65-C67) does."},
 {"property": "C70", "status": "partial", "theorems": ["Verif.C70.no_dead_rules_partial", "Verif.C70.generated_no_dead_rules_partial", "Verif.C70.reduced_iff_in_tree_partial", "Verif.C70.reduced_in_tree", "Verif.C70.reduced_is_accepted", "Verif.C70.no_dead_rules_refuted", "Verif.C70.no_dead_rules_refuted_first"], "note": "False as stated: labels that derive nothing are not reported (S -> A; A -> a A gives a parser that rejects everything, no_dead_rules_refuted), and with incomplete FIRST sets rules can be dead although all labels derive something (no_dead_rules_refuted_first). Proved when every label derives something and no action is missing (C07.ActionsComplete), for the simulator and for generated parsers, where an always failing constructor of the rule is noticed on the input. reduced_iff_in_tree_partial: the inputs on which a rule is used are those with a parse tree in which it occurs."},
 {"property": "C71", "status": "proved", "theorems": ["Verif.C71.effects_never_panic", "Verif.C71.ok_is_read_in_turns", "Verif.C71.user_error_is_first", "Verif.C71.parse_error_is_read", "Verif.C71.overlap_is_read", "Verif.C71.sentences_are_read_in_turns", "Verif.C71.fixed_items_are_a_special_case"], "note": "Iterator::next is a function of the world that the constructors work on (Model/Feedback). readValue (Spec/Feedback) goes through a parse tree and reads one item ahead. The converse for sentences has the hypotheses of C19 (no action missing, disjoint patterns), without which it is false (C19.sentences_are_evaluated_refuted). fixed_items_are_a_special_case: with items given in advance this is the parser of the other properties."},
 {"property": "C72", "status": "partial", "theorems": ["Verif.C72.adding_rules_keeps_sentences_partial", "Verif.C72.adding_rules_keeps_values_partial", "Verif.C72.old_sentences_alike_partial", "Verif.C72.errors_not_earlier_partial", "Verif.C72.removing_rules_keeps_table_partial", "Verif.C72.adding_rules_keeps_sentences_refuted", "Verif.C72.adding_rules_keeps_values_refuted", "Verif.C72.removing_rules_keeps_table_refuted"], "note": "Proved when no action is missing from the table of the larger grammar (for old_sentences_alike those of both; for generated parsers with disjoint patterns; for errors_not_earlier the rules of the smaller grammar are productive). Without that it is false: FirstTable stops as soon as a round only finds labels that may be empty, and a new rule can make it stop earlier. Refutations: adding `D -> d y` makes `z x`, which does not use D, be rejected; adding a rule hides a conflict that the smaller grammar is refused for."},
 {"property": "C73", "status": "partial", "theorems": ["Verif.C73.rejection_text_partial", "Verif.C73.rejection_text_token_partial", "Verif.C73.overlap_text_partial", "Verif.C73.user_text_partial", "Verif.C73.rejection_text_refuted", "Verif.C73.own_no_user_error"], "note": "Proved if no user error has a text that begins with \"Failed to parse: unexpected \" or \"Token \" (so for every grammar without error_type). Without that it is false: a stream that fails with the error \"Failed to parse: unexpected Some(Plus)\" cannot be told from one that is rejected at Plus. That the token is the first that does not fit is C21."},
 {"property": "C74", "status": "proved", "theorems": ["Verif.C74.generated_is_safe", "Verif.C74.no_misuse", "Verif.C74.checked_is_safe", "Verif.C63.checks"], "note": "Soundness of the checker of C63 (checked_is_safe) for all code that it accepts, by a second interpreter (Spec/Ownership) in which variables are emptied by moves and references have the time they were taken at. As in C63, without files that give a type and no constructor to a rule for nothing, and without keywords as names; such code does not compile. The hypothesis of checked_is_safe on user code, that its types are not references or numbers, is shown to be needed and is met by every grammar."},
 {"property": "C75", "status": "partial", "theorems": ["Verif.C75.derived", "Verif.C75.derive_compiles_iff", "Verif.C75.derive_usable", "Verif.C75.conversion_unique", "Verif.C75.generics_refuted"], "note": "derived: the emitted tokens, read by a small reader, are the two impls. derive_compiles_iff is exact; the last sentence of the statement is false for types with parameters (generics_refuted: build_user_error_impl ignores the generics). The other sentences are proved. Trait resolution is a specification (Spec/Derive) from the Rust reference, for impls without parameters of their own."},
 {"property": "C76", "status": "partial", "theorems": ["Verif.C76.first_complete_if_sorted", "Verif.C76.sortable", "Verif.C76.order_exists", "Verif.C76.order_exists_iff", "Verif.C76.parser_exists_partial", "Verif.C76.file_order_exists", "Verif.C76.macro_exists_partial", "Verif.C76.order_refuted"], "note": "The workaround for findings 1 and 13. first_complete_if_sorted: rules sorted by their empty derivations, with a token that is found in their order, have complete FIRST sets (sharper than the condition of C07). sortable: every grammar whose labels are used correctly and that has a token in sight can be sorted. order_exists_iff: for the FIRST sets the condition is exact (InSight; Spec/Sorted). file_order_exists and macro_exists_partial also give the tokens of the reordered file. Missing: parsers of grammars without a token in sight; for one of them (order_refuted) every order of the rules gives a parser that rejects a sentence."},
 {"property": "C77", "status": "proved", "theorems": ["Verif.C77.simulator_right_iff_actions", "Verif.C77.generated_right_iff_actions", "Verif.C77.follow_complete_suffices", "Verif.C77.unambiguous_is_not_enough", "Verif.C77.accepting_is_not_enough", "Verif.C77.weaker_than_first_complete"], "note": "ActionsComplete is the assumption of C02, C05, C13, C19, C21, C44, C48, C49, C61, C70, C72; this theorem says that it cannot be weakened for grammars whose labels all derive something. A missing action is the reduction by some rule on some lookahead; a parse tree of a sentence that uses this reduction is constructed, and the parser does not build it (Proof/Actions). Both halves are needed: unambiguous_is_not_enough, accepting_is_not_enough. weaker_than_first_complete: FIRST sets may be incomplete although no action is missing."},
 {"property": "C78", "status": "partial", "theorems": ["Verif.C78.text_parser_partial", "Verif.C78.accepts_nonsentence_refuted", "Verif.C78.panics_refuted", "Verif.C78.never_returns_refuted", "Verif.C78.end_marker_refuted"], "note": "FINDING: false. An epsilon before another node is accepted, and then the parser of S -> ! a accepts aa, that of S -> A; A -> x ! a panics on xaa in debug builds, that of S -> A; A -> A A ! B; A -> !; B -> b never returns for b. Proved if only epsilons follow an epsilon. With Grammar::new an end marker in a rule also leads to a parser that never returns (end_marker_refuted). This is why C01, C03, C04 and others assume WellFormed."},
 {"property": "C79", "status": "partial", "theorems": ["Verif.C79.set_is_finite_set", "Verif.C79.map_is_total_map", "Verif.C79.debug_prints_all_partial", "Verif.C79.debug_ids", "Verif.C79.debug_refuted", "Verif.C79.sparse_debug_prints_all"], "note": "FINDING: false for Debug: a FixedSizeMap<u8, _> with an entry for each byte panics when printed in a debug build, because from_id refuses 255 (as in C32). Proved for sets and maps without restriction, and for Debug if from_id is defined for all ids below the capacity, which holds for token ids and usize (debug_ids)."},
 {"property": "C80", "status": "proved", "theorems": ["Verif.C80.state_text_unique", "Verif.C80.state_text_says"], "note": "States are those of the kernel table, which the code drops when the table is built."},
 {"property": "C81", "status": "partial", "theorems": ["Verif.C81.lr1_gets_table", "Verif.C81.table_is_lr1_partial", "Verif.C81.table_iff_lr1_partial", "Verif.C81.table_iff_lr1_refuted", "Verif.C81.noConflict_iff_lr1", "Verif.C81.one_derivation", "Verif.C81.lr1_unambiguous", "Verif.C81.lr1_file", "Verif.C81.lr1_parser_partial"], "note": "An LR(1) grammar gets a table, always. The converse is false (finding 1): a grammar that is not LR(1) and gets a table is given. It is proved when no action is missing (C07.ActionsComplete). noConflict_iff_lr1: no two items demand different actions exactly if the rules have Knuth's property. lr1_file: a file with an LR(1) grammar becomes a parser unless types, labels, terminals or constructors are wrong."},
 {"property": "C82", "status": "partial", "theorems": ["Verif.C82.label_builds", "Verif.C82.label_accepted_partial", "Verif.C82.label_sound", "Verif.C82.label_decides_partial", "Verif.C82.label_value", "Verif.C82.label_evaluated_partial", "Verif.C82.label_accepted_refuted"], "note": "Acceptance is proved when no action is missing from the table of the old grammar, and false otherwise: S -> y L gets a table, S -> L with the same rules for L does not, because FIRST sets are computed in more rounds (finding 1). That the parser for l accepts all that l derives needs that no action is missing from its own table (and disjoint patterns for generated parsers); soundness and values are proved without."},
 {"property": "C83", "status": "partial", "theorems": ["Verif.C83.ll1_is_lr1", "Verif.C83.ll1_gets_table", "Verif.C83.ll1_unambiguous", "Verif.C83.ll1_file", "Verif.C83.ll1_parser_partial", "Verif.C83.ll1_parser_refuted"], "note": "That there is a table, that the macro returns a parser and that the grammar is unambiguous are proved for all LL(1) grammars with productive labels. That the parser accepts all sentences is false (finding 1): an LL(1) grammar whose only sentence is rejected is given. It is proved when no action is missing (C07.ActionsComplete)."},
 {"property": "C84", "status": "partial", "theorems": ["Verif.C84.classes", "Verif.C84.lalr1_is_lr1", "Verif.C84.lalr1_gets_table", "Verif.C84.lalr1_file", "Verif.C84.lalr1_parser_partial", "Verif.C84.more_than_lalr1", "Verif.C84.lalr1_parser_refuted"], "note": "That there is a table and that the macro returns a parser are proved for all LALR(1) grammars with productive labels, and so for SLR(1) and LR(0) grammars (classes). more_than_lalr1: a grammar that is not LALR(1) gets a table. That the parser accepts all sentences is false even for LR(0) grammars (finding 1, lalr1_parser_refuted); it is proved when no action is missing (C07.ActionsComplete)."},
 {"property": "C85", "status": "partial", "theorems": ["Verif.C85.mistake_ambiguous", "Verif.C85.mistake_not_lr1", "Verif.C85.mistake_refused_partial", "Verif.C85.mistake_file_partial", "Verif.C85.mistake_refused_refuted"], "note": "That such grammars are ambiguous and not LR(1) is proved for all grammars with productive labels. That they are refused is false (finding 1): S -> Y B; Y -> ! | ! | Y | Y Y; B -> A a; A -> ! has all four mistakes and gets a table, since no lookahead is found for the rules of Y. It is proved when no action is missing (C07.ActionsComplete)."},
 {"property": "C86", "status": "proved", "theorems": ["Verif.C86.simulator_constant_stack", "Verif.C86.generated_constant_stack", "Verif.C86.generated_constant_stack_fed"], "note": "For all grammars that get a table (the simulator needs a well-formed grammar), all streams and all meanings."},
 {"property": "C87", "status": "partial", "theorems": ["Verif.C86.simulator_stack_grows_partial", "Verif.C86.simulator_constant_stack_iff_partial", "Verif.C86.generated_stack_grows_partial", "Verif.C86.stack_grows_refuted"], "note": "Proved if no action is missing (finding 1) and every label derives something, for generated parsers also if patterns do not overlap and constructors do not fail. Neither of the first two can be dropped: stack_grows_refuted has a grammar with missing actions and one with a label that derives nothing whose parsers never move."},
 {"property": "C88", "status": "proved", "theorems": ["Verif.C88.first_exact", "Verif.C88.table_iff", "Verif.C88.table_iff_lr1", "Verif.C88.accepts_exactly_sentences", "Verif.C88.unambiguous", "Verif.C88.same_if_complete", "Verif.C88.right_parsers_kept", "Verif.C88.witness_accepted", "Verif.C88.missed_refused", "Verif.C88.generated_linear", "Verif.C88.generated_evaluates_sentences", "Verif.C88.generated_error_is_first", "Verif.C88.generated_unambiguous", "Verif.C88.generated_same_if_complete", "Verif.C88.generated_witness_accepted", "Verif.C88.lr1_parser", "Verif.C88.ll1_parser", "Verif.C88.lalr1_parser", "Verif.C88.mistake_refused", "Verif.C88.label_parser", "Verif.C88.order", "Verif.C88.adding_rules", "Verif.C88.reduced_iff_in_tree", "Verif.C88.no_dead_rules", "Verif.C88.constant_stack_iff", "Verif.C88.simulator_is_lr1", "Verif.C88.generated_is_lr1", "Verif.C88.generated_no_dead_rules", "Verif.C88.generated_stack_grows", "Verif.C88.generated_order", "Verif.C88.generated_adding_rules", "Verif.C88.generated_label"], "note": "About the code with a change (Model/Repair.lean, nothing of which is in the repository); it shows that finding 1 is the only cause why C02, C05, C07, C13, C19, C61, C62, C72, C81, C82, C83, C84 and C85, and C03, C21 and C53 for generated parsers, are partial, and that labels that derive nothing are the only other cause for C70 and C87. For order and adding_rules the root is not mentioned in its own rule."},
 {"property": "C89", "status": "proved", "theorems": ["Verif.C89.simulator_steps_exact", "Verif.C89.generated_steps_exact"], "note": "The simulator for well-formed grammars. The tree is the one whose value is returned (C18)."},
 {"property": "C90", "status": "proved", "theorems": ["Verif.C90.state_functions_flat", "Verif.C90.parse_fallible_calls", "Verif.C90.one_call_at_a_time"], "note": "About calls of the functions that the macro writes. Not about what constructors of the user do, nor about dropping deeply nested values."},
 {"property": "C91", "status": "proved", "theorems": ["Verif.C91.same_but_pub", "Verif.C91.error_iff", "Verif.C91.code_iff", "Verif.C91.declared", "Verif.C91.expansion"], "note": "What the crate proc_macro_error makes of abort! is taken to be one compile error with the message at the span."},
 {"property": "C92", "status": "proved", "theorems": ["Verif.C92.results_correspond", "Verif.C92.same_inputs", "Verif.C92.alike", "Verif.C92.bare_accepted", "Verif.C92.recogniser"], "note": "For parsers whose typed rules without nodes have a constructor (others do not compile) and tokens that stand for one terminal at most."},
 {"property": "C93", "status": "proved", "theorems": ["Verif.C93.same_rules", "Verif.C93.split_same"], "note": "Errors are compared by kind; where they point depends on the text of the file."},
 {"property": "C94", "status": "proved", "theorems": ["Verif.C94.simulator_foreign", "Verif.C94.stops_at_foreign", "Verif.C94.foreign_has_no_value", "Verif.C94.foreign_ends"], "note": "foreign_ends has the condition of C03 (overlaps reported or impossible, or no action missing). Simulator for well-formed grammars."},
 {"property": "C95", "status": "partial", "theorems": ["Verif.C95.lr1_iff", "Verif.C95.alternatives_accepted_partial", "Verif.C95.alternatives_accepted_refuted", "Verif.C95.accepts_only", "Verif.C95.alternative_decides_partial", "Verif.C95.alternatives_repaired", "Verif.C95.generated_value", "Verif.C95.generated_evaluated_partial"], "note": "False in general: alternatives_accepted_refuted. Missing: grammars with missing actions (C07), and overlapping patterns in generated parsers. lr1_iff, accepts_only and generated_value are unconditional; alternatives_repaired is for the code with the repair of C88."},
 {"property": "C96", "status": "partial", "theorems": ["Verif.C96.lr1_iff", "Verif.C96.forms_accepted_partial", "Verif.C96.forms_accepted_refuted", "Verif.C96.forms_repaired"], "note": "False in general: forms_accepted_refuted. Missing: grammars with missing actions (C07). lr1_iff is unconditional; forms_repaired is for the code with the repair of C88."},
 {"property": "C97", "status": "partial", "theorems": ["Verif.C97.lr1_iff", "Verif.C97.language_iff", "Verif.C97.list_accepted_partial", "Verif.C97.list_accepted_refuted", "Verif.C97.accepts_only", "Verif.C97.list_decides_partial", "Verif.C97.accepts_append_partial", "Verif.C97.list_repaired"], "note": "False in general: list_accepted_refuted. Missing: grammars with missing actions (C07). lr1_iff, language_iff and accepts_only are unconditional; list_repaired is for the code with the repair of C88."},
 {"property": "C98", "status": "partial", "theorems": ["Verif.C98.generated_value", "Verif.C98.generated_evaluated_partial", "Verif.C98.generated_evaluated_refuted", "Verif.C98.generated_evaluated_repaired"], "note": "False in general: generated_evaluated_refuted, a list that the generated parser refuses because actions are missing (C07). generated_value (every returned value is the fold) is unconditional. Missing in generated_evaluated_partial: grammars with missing actions and overlapping patterns. generated_evaluated_repaired is for the code with the repair of C88: there only overlapping patterns are excepted."},
 {"property": "C99", "status": "partial", "theorems": ["Verif.C99.lr1_iff", "Verif.C99.language_iff", "Verif.C99.list_accepted_partial", "Verif.C99.list_accepted_refuted", "Verif.C99.accepts_only", "Verif.C99.list_decides_partial", "Verif.C99.accepts_append_partial", "Verif.C99.list_repaired"], "note": "False in general: list_accepted_refuted. Missing: grammars with missing actions (C07). lr1_iff, language_iff and accepts_only are unconditional; list_repaired is for the code with the repair of C88."}
]}
