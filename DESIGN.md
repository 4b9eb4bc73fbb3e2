# Formal model of parser_generator: design

Everything below refers to the sources in /repo (Rust). The model is Lean 4, in
`lean/Verif/`. Layout:

* `Verif/Model/*`  executable model of the code, function by function, each definition citing file and lines.
* `Verif/Spec/*`   small independent specifications (context-free derivations, parse trees, FIRST, finite sets, ...).
* `Verif/Proof/*`  lemmas (invariants, simulations).
* `Verif/Props/*`  the property theorems, each with a non-vacuity example beside it.
* `Verif/Tests/*`  the unit and integration tests of the repository, evaluated on the model (tests, not proofs).

## Modelling conventions

* A function that can panic returns `Outcome ε α` with the constructors `ok`, `err` (a Rust `Err`),
  `panic` (index out of range, `unwrap`/`expect` on nothing, failing `debug_assert!`), `ub`
  (`unwrap_unchecked` on `None`, `unreachable_unchecked`) and `timeout` (loop fuel exhausted; never a
  result of the code, only of the model). All `debug_assert!`s are modelled as checked, i.e. the model is
  that of a debug build. The theorems show that they never fail, so release builds behave the same; the one
  place where builds differ on purpose (overlap check in generated code) is modelled with a flag.
* `while`/`loop` become recursion on a fuel argument. Results hold for every fuel at which the loop finishes,
  and separate theorems (C03, C08) show that some fuel always suffices.
* `&mut self` returns the new value. `usize` is `Nat` (no overflow; sizes are bounded by memory).
* `HashMap` is an association list. Where the code iterates over a hash map the order is a parameter
  (an arbitrary permutation), and the theorems hold for all of them.
* `Vec::sort_by_key` is a stable insertion sort (the result of a stable sort is unique).
* Debug assertions are modelled as panics, as in debug builds. In release builds they are absent; where a theorem says that
  the code does not panic, no assertion fails, so that both builds do the same. Where they differ on purpose (the check of
  overlapping patterns) the model has a parameter for it (C28, C68).
* `println!` is not modelled. Display/Debug text is modelled for tables (Model/Display) and for errors of lr_table
  (Model/ErrorText), and for sets, items, kernels and maps (Model/DebugText). Error values keep their data, not their text. Spans and texts of the errors of the macro are in a second
  model of the parser of grammar files (Model/Located), which is shown to erase to the first one; `Span::join` is an arbitrary
  partial function.
* Rust user code (constructors, `TryInto`, token pattern matching, the input iterator) is an arbitrary
  parameter of the model.

## Properties: what is modelled and how it is proved

Findings are marked (F): the code violates the property; the negation is proved on a witness and the property
is proved under the extra hypothesis that excludes the defect (theorem name with suffix `_partial`).

| id | model | proof idea |
|----|-------|-----------|
| C01 | Grammar, IndexedGrammar, FirstTable, closure, kernels, LRTable, simulator | invariant: the state stack is a path of the automaton, the node stack spells it and derives the consumed input; transport from ids to user tokens |
| C02 | same | (F) FIRST may miss tokens (first_map.rs:49 does not report a change). Proof by induction on parse trees from the completeness of closure/table when no action is missing (C07.ActionsComplete; exact by C77) |
| C03 | simulator, generated loop | lookahead chains: after a reduce on `a` finitely many reductions lead to a shift of `a` or to accept; induction on stack height and on the justification of lookaheads (FIRST table only has to be self-justified). (F) Generated parsers that do not report overlaps: with the true FIRST sets every reduction is also one on the lookahead of the next reduction, so a run that changes its mind has no more reductions than one that does not (Proof/Mixed); without them an endless run |
| C04 | simulator with checked assertions | stack invariant of C01 |
| C05 | same + tree-building run | (F) consequence of C07. The run of the deterministic parser along a tree rebuilds this tree |
| C06 | FirstTable | loop invariant: every entry is justified by a finite derivation |
| C07 | FirstTable | (F) witness grammar; under "one more round adds no epsilon" least fixpoint argument; also unconditional for grammars without nullable labels |
| C08 | loops with fuel | number of set bits grows; number of kernels is finite |
| C09 | LRTable::build with panics | (F) root rule referencing itself (`S -> S a`) panics; exact: it panics only if the root rule names the root first or where a token may follow (`Spec.RootOverlaps`), and returns no table then (Proof/RootExact) |
| C10 | IndexedGrammar::build | reachability by DFS invariant; case analysis |
| C11 | IndexedGrammar::build | invariants of grouping |
| C12 | VocabularyBuilder | invariant of insertion |
| C13 | try_build_from_partitions | exact characterisation of insertion failures |
| C14, C15 | LRTable::build | loop invariant over explored states |
| C16 | LRStateMap | every kernel item of a non-initial state has the same preceding symbol |
| C17, C18, C19, C20, C23, C41 | generated program as data + interpreter | stack invariant; simulation with the abstract LR machine; evaluation of trees |
| C21, C22, C43 | same | valid items: each item of the top state extends to a sentence; C03's chain lemma |
| C24, C25, C26 | ParserStream, parse loop | invariants of the run over a fallible stream |
| C27, C28 | arms as lists in arbitrary order | at most one arm matches |
| C29..C33 | BitSet (64-bit words), SparseFixedSizeMap, partitions, Kernel::new | refinement lemmas |
| C34 | closure_follow_sets | loop invariants, least fixpoint |
| C35 | from_grammar_str on character lists | printer/parser round trip |
| C36..C40 | macro front end on token trees | inductions over token streams; C40 has a small finding (F): default constructor of an epsilon rule with a type refers to an unbound variable |
| C42 | LRTable::build | valid items give two conflicting sentential forms |
| C44 | LRTable/simulator | (F) witness `S -> A`, `A -> ! a`: `a` is rejected. With epsilons only at the end of rules the parser decides the language: item positions count the nodes before the epsilons |
| C45 | LRTable::build + original indices | (F) messages name regrouped rule numbers; the conflict itself is transported to the user's grammar along the encoding |
| C46 | the whole macro as a function from token trees to parsers | (F) the remaining panics are listed and shown to be the only ones |
| C47 | same | "the macro succeeds" is shown equivalent to a condition on the text (`Good`), using C13, C37, C39, C40 |
| C48 | generate_parser | (F) constructors of rules that no state reduces are never looked at |
| C49 | macro + runtime | composition of C36/C37 (text to grammar), C10..C13 (grammar to table), C17..C20 (parser to result) |
| C50 | code_gen | typing rules for the forms of generated code (Spec/Typing); paths of the automaton give the types of popped states; preservation along the loop |
| C51 | code_gen, the emitted text (Model/Emit) | binding structure of the text made explicit (`Code`); scopes by induction on the code (Spec/Scope); (F) type `E` captured by a generic parameter |
| C52 | terminal.rs `as_pattern` | (F) witness `enum_terminal: Tok<u8>` |
| C53 | simulator and generated loop | amortised cost with the height of the stack as potential; chains of reductions of one lookahead are bounded by the number of rules times the longest derivation of an empty suffix. Overlapping patterns: every run is a run on some choice of terminals. (F) without complete tables, in release builds |
| C54 | the emitted text as an expression tree (Model/Rust, Model/Emit) | interpreter for the fragment of Rust (Spec/Rust); simulation between its store and the state of Model/Runtime, arm by arm, then induction on the iterations of the loop; a reader for the tokens (Spec/RustSyntax) and a round trip by induction on the code |
| C55 | same | the round trip of C54; (F) witness `name: match` |
| C56 | terminal.rs `as_pattern`, state_action_builder.rs | patterns of the file are spliced into the emitted tokens as several alternatives (Spec/Patterns), which are read again; (F) witnesses `Num(1 \| 2)` and `Num(x)` |
| C57 | `Display` of tables, actions, gotos, token ids (Model/Display) | a reader for the text, line by line and word by word (Spec/TableText), is a left inverse; cells have fixed offsets because no text is longer than its column |
| C58 | tables (Model/LRTable and below), accepting arms of generated code | a connected grammar begins every rule after some sequence of symbols, so the state for that sequence shifts or goes on its next symbol (Built.at_of_valid, Built.entries); only the root's right side is accepted (Demands.accept_stack, GenCode.root_alone); kernels remember the symbol they were entered on |
| C59 | tokenizer and grammar reader (Model/Symbol, Model/Annotated) | a grammar of Rust types (Spec/RustTypes); every type is plain or has a token outside groups that no symbol of the grammar language contains; such a stream has no reading (C36), so that C37.rejects applies; plain types are printable and the grammar does not depend on types (C37.file_is_accepted) |
| C60 | indexed grammar, table, simulator, grammar reader, code generator, emitted code | outcomes of the original and the renamed run are related function by function (Proof/Naming, Proof/NamingMacro: `OutRel`); names injective only on the symbols that occur are reduced to injective ones by restricting the types to these symbols (C60.restrict); the macro part goes through the syntax of files (C37) |
| C61 | table, simulator, emitted code | (F, from C07) Spec/Results defines the LR(1) parser from rightmost derivations; every step of the run is the one the valid items demand (C42, C43, C49), and the spec machine is deterministic where a table exists, so both end alike; streams that fail (`BreaksOff`) included |
| C62 | indexed grammar, FIRST, table, simulator, emitted code, macro | (F, finding 13) derivations, valid items and the machine of C61 are carried along a permutation of the rules (Proof/Order); C61 then transfers the result |
| C63 | emitted code, macro | Spec/Check checks types, moves, borrows and matches of the emitted fragment; from the typing of C50 every part of the emitted code is shown to pass (Proof/Check), and C54's reader connects it to tokens |
| C64 | Display of errors, tokens and labels (Model/ErrorText) | (F, finding 14) no beginning of a text of one kind begins another one; numbers end at their parenthesis, labels at commas; C13 and C10 say which tokens and labels an error mentions |
| C65 | the parser of grammar files with spans and messages (Model/Located) | (F, finding 15) each parser is shown to fail only at an item that the error blames, with what is before it a beginning of the form, and to fail in the same way whatever follows; so no file has that beginning |
| C66 | the code generator with spans and messages (Model/LocatedGen) | erasure to Model/CodeGen; an inductive description of the first wrong reference (Spec/LocatedGen), matched in both directions; every error of the generator traced to a constructor or a terminal |
| C67 | messages of Model/Located | a table of what messages offer (Spec/LocatedText); carried along in the description of failures of C65 (`Hinted` in Proof/LocatedPlace) |
| C68 | Model/CodeGen with two orders | equality of programs up to order (Spec/Reproduce); every step of the code generator carries it over (`Carries` in Proof/Reproduce) |
| C69 | Model/SymbolStream | a position in the outputs of an arbitrary iterator (Spec/SymbolStream); simulation over adaptive users; refinement to the list model |
| C70 | Model/Simulator, Model/Runtime | rules in parse trees (Spec/Useful); trees of reachable labels extend to trees of the root; reductions of a run are the rules of its tree |
| C71 | Model/Feedback | a walk through a parse tree that reads one item ahead on a shared state (Spec/Feedback); one iteration in terms of the values on the stack, invariant over runs with the items read so far |
| C72 | table construction, simulator, generated parsers | rules of one grammar among those of another (Spec/Extend); items, demands and parse trees of the smaller grammar are some of the larger one (Proof/Extend); uniqueness and completeness (C02, C19, C21); refutations by evaluation |
| C73 | texts of runtime errors (Model/RuntimeText) | C21 and C28 read off from the text: the beginnings of the texts exclude each other |
| C74 | emitted code, macro | Spec/Ownership runs emitted code and stops at uses of moved values and old references; by induction over code, what the checker of C63 accepts keeps values of their types in ready variables, so it runs as in Spec/Rust (Proof/Ownership) |
| C75 | derive, runtime | (F: parameters of the type are ignored) Spec/Derive reads the derived tokens as impls and says when the impls of a crate compile and which bounds hold; case analysis |
| C76 | FIRST, indexed grammar, table, simulator, macro | (F: some grammars without a token in sight) labels that vanish are found in the first round if they are listed by the depth of their empty derivations; the label of the rule with the token in sight comes after those that vanish without it. Conversely, an invariant of the first round: what it finds is in sight (Proof/Sorted). A file is rewritten rule by rule |
| C77 | table, simulator, generated parser | a missing reduction is used by the parse tree of some sentence: a valid item with its lookahead is completed to a tree (Proof/Actions); the steps of a parser are read off the tree it builds, so a parser that builds this tree has the reduction |
| C78 | text to parser | (F) C35 with C01, C03, C04; the counterexamples are texts, evaluated by the kernel, and an induction on the number of steps for the parser that does not return |
| C79 | FixedSizeSet, FixedSizeMap and Debug of maps (Model/FixedMap, Model/DebugText) | (F, finding 22) refinement to sets and functions of labels, by induction on the operations |
| C80 | Display of VocabSet, Position, Kernel (Model/DebugText) | numbers end at a character that is no digit, items contain no comma; states of the table are pairwise different |
| C81 | LRTable::build | (F, from C07) the symbols read before a handle are followed by valid items with the right lookaheads (Proof/KnuthExact, invariant of rightmost derivations), so two handles at one place are two demands |
| C82 | IndexedGrammar::build, LRTable::build, simulator, generated parsers | (F, from C07) Knuth's condition is passed on to every label in a sentential form; a new root that competes with a reduction would be a second derivation of one form (`rm_unique`) |
| C83 | LRTable::build, simulator, grammar macro | (F, from C07) in an LL(1) grammar two valid items after the same symbols with a common lookahead are the same item (Proof/LL, induction on the symbols read and on the steps of the closure), so there is no conflict (Knuth's theorem that LL(1) grammars are LR(1)) |
| C84 | LRTable::build, simulator, grammar macro | (F, from C07) the lookaheads of LR(1) items are among those of the merged state, those among FOLLOW (Spec/Merged); a checker for LR(0) automata decides the samples |
| C85 | LRTable::build, grammar macro | (F, from C07) each mistake gives two trees of one label for the same tokens, which are put into a tree of the root (Proof/Mistakes); LR(1) grammars are unambiguous |
| C86, C87 | parse_stream, generated loop | the stack spells a viable prefix; by induction on valid items its length is at most M times the number of levels gone down, and a cycle that is not left recursion can be repeated; every viable prefix is the stack at some moment of reading some sentence (Proof/Nesting) |
| C88 | FIRST table with first_map.rs:47-49 changed (Model/Repair, not in the repository), then the table, simulator and generated parser as they are | every change is reported, so the last round starts from the table it returns, which is therefore closed under the rules (Proof/Repair); the invariants of the table construction hold for any FIRST table that is justified; consequences for LL(1), LALR(1), order, additions and roots from the characterisations of LR(1) (Props/RepairMore); textbook parser, useful rules and stacks as in C61, C70, C87 (Props/RepairUse) |
| C89 | parse_stream, generated loop | each step of the machine is a shift or a reduction; the trees on the stack have as many nodes as there were reductions (Props/Count) |
| C90 | emitted code | the calls and loops of the emitted expressions; an interpreter in which functions may call each other, with room for so many active calls, agrees with that of C54 if there is room for one (Spec/Frames, Props/Frames) |
| C91 | macro entry points | expansions: code or one compile error; those of the two macros compared (Model/MacroEntry, Props/MacroEntry) |
| C92 | independence from constructors | related results of two parsers (Spec/Related); a file without types and constructors (Proof/Related, Props/Related) |
| C93 | grouping of rules | what the macro returns as a function of options and rules (Props/Grouping) |
| C94 | tokens no terminal stands for | no action is demanded on them, and what has been read is the word of a forest (Props/Foreign) |
| C95 | alternatives told apart by their first token | a right sentential form is the token followed by one of the alternative, so handles that conflict are of one alternative (Proof/Dispatch, Props/Dispatch) |
| C96 | parts closed by a token of their own | the last label of a right sentential form lies below one label of the rule; the token that follows it separates what the label has become from the rest (Proof/Forms, Props/Forms) |
| C97 | lists of closed items | the last label of a right sentential form is the list itself at the left end or lies below the item after it; the closing token separates this item from the rest (Proof/ListOf, Props/ListOf) |
| C98 | values of lists are left folds | the trees of a list are its items one after the other, and evaluating them is the fold (Spec/ListFold, Props/ListFold); C18 and C19 for the generated parser; refutations of C98, C100 and C102 in Props/FoldRefuted |
| C99 | lists with a separating token | as C97; an item is followed by nothing or by the separator, so that the first separator ends it (Proof/SepList, Props/SepList) |
| C100 | left association | as C98, for the lists of C99 (Spec/SepFold, Props/SepFold) |
| C101 | lists with the label on the right | as C99; a sentential form begins with items that are each followed by the separator, and two handles differ in their number only if an item derives itself (Proof/RightList, Props/RightList) |
| C102 | right association | as C98, for the lists of C101 (Spec/RightFold, Props/RightFold) |
| C103 | optional parts | where handles can be; two handles of different kinds need a part that derives itself or the empty sequence (Proof/Optional, Props/Optional) |
| C104 | brackets | where handles can be; the numbers of opening tokens agree, then as for lists with a separating token (Proof/Brackets, Props/Brackets) |
| C105 | values of brackets | the trees are the pairs of brackets around a tree of the part; C18 and C19 (Spec/BracketFold, Props/BracketFold) |
| C106 | values of optional parts | the trees are the empty rule or a tree of the part; C18 and C19 (Spec/OptionalFold, Props/OptionalFold) |
| C107 | prefix operators | as for brackets, with nothing after the part (Proof/Prefixed, Props/Prefixed) |
| C108 | values of prefix operators | as C105, with nothing after the part (Spec/PrefixFold, Props/PrefixFold) |
| C109 | postfix operators | as C107, with the operators after the part (Proof/Postfixed, Props/Postfixed) |
| C110 | values of postfix operators | as C108, with the operators after the part (Spec/PostfixFold, Props/PostfixFold) |

## Findings

1. `FirstTable::propagate_map` (first_map.rs:49) does not report a change when it adds epsilon. FIRST sets can be
   incomplete (C07), hence sentences rejected (C02, C19, C21), conflicts missed and ambiguous grammars accepted
   (C05, C13, C81, C85), and a part of an accepted grammar can be refused (C82). Reporting the change would repair all of
   this, and would alter nothing for grammars whose FIRST sets are right now (C88).
2. A root rule that mentions the root: `S -> S a` makes `LRTable::build` panic (C09), `S -> a S` the macro (C46).
3. Epsilon before other nodes: `A -> ! a` does not match `a` (C44). The macro refuses such rules (C38), the lr_table API
   does not.
4. A typed epsilon rule without constructor refers to the unbound variable `__v0` (C40).
5. Conflict messages carry rule numbers after regrouping by label, not those of the user (C45).
6. Constructors of rules that are never reduced are not checked (C48).
7. `Label for u8` panics for 255 (C32); a character literal as terminal of an enum grammar panics (C46); a trailing
   `=` or `:` with joint spacing at the end of the input is dropped (C36); release builds resolve overlapping token
   matchers by hash order (C27).
8. Generated functions have the plain generic parameters `I`, `B`, `E`, which capture types of these names in the
   grammar file (C51). `__peeked_val`, `parse_s0`, `{Name}DfaStates` and the variables of lookahead patterns are also
   visible in constructors, and the code relies on `Some`, `None`, `Ok`, `Err`, `matches!`, `format!` not being shadowed.
9. `enum_terminal: Tok<u8>` is accepted, but `Tok<u8>::A` is no path (C52).
10. `name: match;` is accepted and expands to `struct match;` (C55). The macro does not look for keywords.
11. Patterns are spliced into generated patterns without parentheses: for the terminal `Num(1 | 2)` the arm of a shift
   has the pattern `Some(&Tok::Num(ref wildcard_var @ 1 | 2))`, which binds `wildcard_var` in one alternative only and
   is refused by rustc (E0408). The patterns of all lookaheads of a reduction are joined with `|`, so that a lookahead
   `Num(x)` beside another one is refused as well (C56).
12. Types of labels, tokens and errors are read with the symbols of the grammar language, which have no `,`, `&`, `'`, `*`,
    `+`, `-`, no single `=` and no numbers: `HashMap<K, V>`, `&'static str` and `Box<dyn Fn() -> T>` are rejected (C59). In
    parentheses or brackets, or behind a type alias, they can be used.
13. The order of the rules matters (a consequence of 1): with `S -> Y B; Y -> !; B -> A a; A -> !` the input `a` is rejected,
    with the last two rules exchanged it is accepted (C62); another grammar has a table in one order and is refused as
    conflicting in another. The LR(1) parser of the grammar accepts what the generated parser rejects (C61).
14. Messages about conflicts print the end of the input as `$`, like a token `$` (C64; not possible in macro grammars). The
    message about unreachable labels lists them in hash order, so that it differs from run to run.
15. `SymbolStream::expect_symbol` (symbol_stream.rs:41-53) does not update `current_span`; only `SymbolProxy::take` after a peek
    does. So "Unexpected end of input" is reported at the last symbol that was taken after a peek, or at the whole invocation
    (C65): for `name: A; terminal: std::char; <S> => 'a'` at `char` instead of `'a'`. Also: whether epsilon is alone is checked
    at the end of a rule only, so `<S> => 'a' ! : ;` is reported at `:`; a declaration without a type that disagrees with an
    earlier one is reported at the earlier one; errors of lr_table are reported at the whole invocation. A terminal that is no
    literal is reported at the whole invocation too (terminal.rs:86-94), and with several mistakes in constructors or terminals
    it depends on hash order which one is reported (C66).
16. The generated code is not reproducible: arms that reduce come in hash order, so the expansion and, with several mistakes,
    the reported error differ from run to run (C68). If a token matches two patterns, the parser of a release build may
    take another arm after compiling again: with `<T> => <A> Num(1) | <B> Num(..)` and `<A> => Z`, `<B> => Z` the input
    `Z Num(1)` is read in one way or the other. Debug builds report the overlap.
17. Labels that derive nothing are not reported: for `S -> A; A -> a A` a parser is built that rejects every input (C70). That a
    label has rules and can be reached is checked, that it derives something is not.
18. Because of finding 1, adding a rule can break inputs that do not use it (C72): `S -> z Y B; Y -> !; B -> A x; B -> w D; A -> C;
    C -> !; D -> E; E -> d` accepts `z x`; after `D -> d y` has been added, the FIRST sets are complete for tokens one round
    earlier, the loop stops before it is known that `A` may be empty, and `z x` is rejected. In the same way a new rule can
    hide a conflict.
19. `derive(ParserUserError)` ignores the parameters of the type (C75): for `struct E<T>(T)` or `struct E<'a>(&'a str)` it
    emits `impl … for E`, which does not compile.
20. Findings 1 and 13 can be avoided by listing the rules in another order, if some rule begins with a token, or, more
    exactly, has one in sight (C76). For instance, `L -> L x | !` should be written `L -> ! | L x`. With
    `S -> M L; M -> !; L -> P x | !; P -> L` no order helps: the sentence `x` is always rejected.
21. `from_grammar_str` accepts `!` before other nodes of a rule (see also the finding for C44), and the parsers of such
    grammars are not only incomplete (C78): that of `S -> ! a` accepts `aa`, which is no sentence; that of
    `S -> A; A -> x ! a` panics on `xaa` in debug builds; that of `S -> A; A -> A A ! B; A -> !; B -> b` never returns for
    `b` and its stack grows without bound. An end marker inside a rule (possible with `Grammar::new`) has the last effect
    too. The macro never makes such grammars (C38). Hence the hypothesis `WellFormed` of C01, C03, C04 and others.
22. `from_id` for `u8` refuses 255 in debug builds (C32), so a `FixedSizeMap<u8, _>` of capacity 256 can be used but not
    printed (C79).
23. A consequence of 1 and of the overlap check being absent in release builds: a release build can loop for ever. The
    parser for `S => X; D => P Q; G => !; H => !; X => Q | E Z | H Num(..); Z => D | F X | G Num(1); E => E1; E1 => E2;
    E2 => !; F => F1; F1 => F2; F2 => !` given `Num(1)` takes the token for `Num(1)` where it expects an `X` and for
    `Num(..)` where it expects a `Z`, so it pushes `E F E F …` until memory runs out; which arm comes first depends on the
    order of a hash map while the macro runs (C03).

## What is modelled and what is not

| file in /repo | model | not modelled |
|---|---|---|
| lr_table/src/bit_set.rs | Model/BitSet (all functions, 64-bit words) | Debug |
| lr_table/src/fixed_map.rs | Model/FixedMap (`Label` instances, `SparseFixedSizeMap`, `FixedSizeMap`, `FixedSizeSet`), Model/DebugText; where the other models use `FixedSizeMap`/`FixedSizeSet` they have lists / BitSets directly | — |
| lr_table/src/grammar.rs | Model/Grammar, Model/GrammarText (`from_grammar_str` on character lists) | derived Debug |
| lr_table/src/vocabulary.rs | Model/Vocabulary, Model/ErrorText, Model/DebugText | Debug of tokens |
| lr_table/src/indexed_grammar.rs | Model/IndexedGrammar | derived Debug |
| lr_table/src/first_map.rs | Model/FirstMap | |
| lr_table/src/position.rs, kernel.rs, kernel_table.rs | Model/Position, Model/DebugText | Debug of Kernel |
| lr_table/src/closure.rs | Model/Closure | |
| lr_table/src/lr_table.rs | Model/LRTable, Model/Display | Debug |
| lr_table/src/lr_state_map.rs | Model/StateMap | |
| lr_table/src/parse_simulator.rs | Model/Simulator (debug assertions included) | |
| lr_table/src/error.rs | Model/Error (variants and data), Model/ErrorText | errors that are never made |
| parser_generator_impl/src/symbol.rs, type_symbol.rs, symbol_stream.rs, ident.rs | Model/TokenStream, Model/Symbol; with spans and messages Model/Located; the buffered stream Model/SymbolStream | — (raw identifiers `r#x` are identifiers with another spelling, rejected by `verify_ident_spelling`) |
| .../annotated_grammar/* | Model/Annotated, Model/ParseGrammar; with spans, messages and `intercept` Model/Located | — |
| .../code_gen/* | Model/CodeGen (the generated program as data), Model/Constructor (substitution on token trees), both with spans and messages Model/LocatedGen, Model/Rust and Model/Emit (the Rust text with its scopes, as a tree whose rendering is the text) | — |
| parser_generator_impl/src/lib.rs, error.rs | Model/CodeGen `buildGrammar`, Model/MacroEntry (`grammar!`, `pub_grammar!`, `abort`); message texts in Model/Located, Model/LocatedGen | what proc_macro_error makes of `abort!` |
| parser_generator_impl/src/util.rs | - | unused `ParseError` |
| src/parser.rs, parser_state.rs, parser_stream.rs, error.rs | Model/Runtime (interpreter of the generated program over a fallible input), Model/Feedback (the same with an iterator that shares state with the constructors), Model/RuntimeText (Display and Debug of errors) | — |
| parser-user-error/src/lib.rs | Model/Derive (the derived tokens) | fields, attributes and where clauses of the type, which the derive does not look at |

The generated Rust program is represented as data (`Program`: per state the arms with their patterns and actions,
per rule the pops, bindings and constructor, the goto functions) and given a meaning by the interpreter in
Model/Runtime. The emitted text is also represented, as an expression tree (Model/Rust) that Model/Emit builds and
renders to tokens; a reader for this fragment of Rust (Spec/RustSyntax) gives the tree back, an interpreter (Spec/Rust)
runs it, and C54 shows that reading and running the tokens agrees with Model/Runtime. For the reader, each type, pattern
and constructor of the user that is spliced into the code is one token, and so is the number of the rule that a
constructor belongs to (`RTok.mark`, no token of Rust), by which the interpreter asks `Sem` what the constructor does. Spec/Patterns looks into the patterns: it takes their
alternatives and the variables they bind as parameters, and splits token trees at each `|` outside of groups.
What is trusted
is that rustc gives the constructs of the fragment the meaning of Spec/Rust. References are values there, patterns have
the binding modes of Rust, `clone()` and `borrow()` need a reference, `&mut` a variable that is `mut`. Lifetimes and
moves are checked apart from running, by Spec/Check (C63): a variable is ready, moved or stale, and reading or changing
the parser's state makes references into it stale. That this checker is right is C74: Spec/Ownership runs the code, knows
nothing of types, and finds no use of a moved value or of a reference that is not good any more. Types of the grammar file are opaque there, nothing is `Copy` unless
it must be; traits are built in for the few methods used (`Borrow`, `Clone`, `ParserUserErrorOrInfallible`), and the
tokens are taken to be `Clone` and `Debug`. User code is a parameter (`Sem`): which
tokens match a pattern, what values patterns bind, what a constructor returns, how it changes the world.

## Validation of the model

The code was not run. What is known about its results are the 88 tests of the repository, which its developers ran.
Verif/Tests transcribes all of them and evaluates them on the model, as part of the build. Tests/LrTable has the 57 unit tests
of lr_table, on the grammars as text. Tests/Macro has the 31 integration tests: the grammar files are the text of the tests,
split into tokens by a small lexer of its own (Tests/Text), and go through the whole model of the macro and of the runtime
library. Constructors are known by the text of their bodies after substitution, so that a wrong substitution fails the test.
Among the results are the number of states of a table (`TABLE_SIZE`, 20) and the difference between debug and release builds
in disjoint_token_pattern.rs. Tests check the model against the code; no property rests on them.

## Trusted base

* Lean 4.33.0's kernel; axioms at most `propext`, `Classical.choice`, `Quot.sound`, listed per theorem below.
* That the definitions in `Verif/Model` say what the Rust code does (each cites its lines), and that
  Spec/RustSyntax and Spec/Rust say how the constructs of emitted code are read and what they do.
* Rust's semantics of the constructs used (pattern matching order, `?`, iterator laziness), std's collections,
  `cknittel_util` (`iter_ones` enumerates set bits in ascending order, `collect_result_vec` stops at the first error),
  `itertools`, `proc_macro2`, `syn`, `quote`.

## Axioms per theorem

From `#print axioms` for the 515 theorems of MANIFEST.json.

* **Classical.choice, Quot.sound, propext** (463): all theorems not listed below.
* **Quot.sound, propext** (43): C05.unambiguous_refuted, C09.build_panics, C09.rightRoot_builds, C09.middleRoot_panics, C09.panic_or_conflict, C10.empty_refused, C103.nullable_refused_refuted, C12.token_ids_dense_bijection, C13.conflict_missed, C16.sampleLR_map, C24.unpulled_items_do_not_matter, C25.parse_is_parse_fallible, C26.result_depends_on_pulled, C29.out_of_range_panics, C31.category_ids, C32.u8_roundtrip_partial, C33.interning, C36.all_ok_or_error, C44.mixed_epsilon_refuted, C51.pattern_names, C51.types_in_functions, RustSyntax.Reads.unique, C60.grammar_names, C60.table_names, C60.library_names, C60.parse_names, C69.answered_in_order, C69.reads_one_ahead, C71.fixed_items_are_a_special_case, C72.adding_rules_keeps_sentences_refuted, C72.removing_rules_keeps_table_refuted, C75.derived, C78.end_marker_refuted, C79.map_is_total_map, C79.debug_prints_all_partial, C79.debug_refuted, C82.label_accepted_refuted, C84.classes, C84.more_than_lalr1, C85.mistake_refused_refuted, C88.witness_accepted, C88.missed_refused, C90.state_functions_flat.
* **none** (5): C32.usize_roundtrip, C32.u8_255_panics, C33.kernel_keeps_items, C33.interning_wf, C79.debug_ids.
* **propext** (4): C32.token_roundtrip, C32.option_roundtrip, C75.derive_usable, C90.parse_fallible_calls.
