## Plan per property (first version, before the proofs)

| property | model | proof |
|---|---|---|
| C01, C10 | `posttransfer` as a scan with the `last_space` flag | induction; spec = "remove a space that follows a space" |
| C02–C05 | `pretransfer` as a recursive-descent over the input with outcome type | grammar of well-formed streams + refinement; divergence witness |
| C06 | `cleanstream` state machine | refinement over the stream grammar |
| C07, C10 | `detach` state machine | refinement over the grammar; NUL isolation by state reset |
| C08, C09 | `attach` state machine with UB outcome | refinement to a stack of sets; negation witness for C09 |
| C11, C12 | evaluator of rule conditions and instructions | induction over syntax trees vs Prop semantics |
| C13 | word as string + regexp find/replace abstracted as a match function | algebraic laws |
| C14 | `combineWblanks` | algebra of piece lists |
| C15, C16 | interpreter with blank queue; transfer main loop over an abstract automaton | invariants |
| C17 | trie builder and regexp language | language equality or counterexample |
| C18 | chunk split | induction over the string |
| C19, C20 | Viterbi over an abstract ordered semiring | induction over words |
| C21, C22 | matrix update, triple test | direct, negation witness for the `else if` |
| C23 | loop with erase and restart | negation witness + partial |
| C24, C25 | collection, similar-class search | invariant over operation histories; negation witness |
| C26, C27 | unigram model | invariant over training history (rational ratios) |
| C28 | printer and parser | round trip |
| C29 | byte serialisers | round trip for every constructor |
| C30 | token streams | negation witness + partial |
| C31, C59-C61 | extract caps, restore caps; the rule automaton is a parameter | refinement over the grammar, invariants on accumulated weights |
| C32 | averaged perceptron | invariant over histories |
| C33 | mode rewriting | list of stages |
| C34 | wrap loop, table of options | induction, termination measure |
| C35, C62 | alignment DP in a band, trail, filters, output | optimality by induction over cells; sublist invariants |
| C63, C64 | sentence splitting, XML escaping, units | refinement against grammars, violations |
| C65-C68 | deformat.xsl and reformat.xsl as interpreters of a format; regular expressions by derivatives; the twelve formats as terms | pieces of the stream as invariant; per-format side conditions by a verified checker |
| C69, C70 | gen_modes.cc: reading the element tree, debug modes, files and their text | lookups in the map of modes by induction over the entries; a small shell reader as specification of the text |
| C71 | transfer_mult.cc: tokens, splitting of translations, combinations, the loop | simulation by the loop model of C16, induction over the words |
| C72 | trx_reader.cc: items, categories, patterns, rule numbers; transfer_data.cc; applyWord of the programs | labelled tries and denotations of states, by induction over items and rules; simulation of the automaton by paths |
| C73 | caps_compiler.cc without its XML reader; the steps of caps_restorer.cc in the compiled transducer | the language of each state of the transducer by induction over the rule; the set of threads by what they have read; the votes by permutation of the matches |
| C74 | Transfer::applyRule; the composition of token reader, pattern compiler, main loop and interpreter | the interpreter commutes with further words; the run of the loop and the derivation of the translation determine each other; more depth of macro calls changes nothing |
| C75 | interchunk.cc: the interpreter (evalCachedString, processLet, processModifyCase, processCallMacro, ...), applyRule, applyWord, readToken, interchunk | as C74; the interpreter commutes with further words, never changes the array of words nor what is inside them (an invariant closed under all instructions); a generic link from the main loop to the specification (`Inter/Engine.lean`) |
| C76 | postchunk.cc: the interpreter (evalCachedString, processLet, processCallMacro, ...), applyRule, applyWord, readToken, splitWordsAndBlanks, unchunk, postchunk | the main loop for one-word patterns is a fold over the chunks (`Postchunk/OneWord.lean`); what the rule gets is computed from the chunk with C42; the interpreter is monotone in the depth of macro calls; an equivalence with the specification |
| C77 | the regular expressions of transfer_data.cc:46-54 as syntax trees (printed back to the text of the source), a backtracking matcher for them; def-attr via C17 | the first way of matching is computed for each expression on a word given by lemma, queue and tags; leftmost by showing that no match begins earlier |
| C78 | the interpreter of interchunk.cc (as C75), processRule, processCallMacro, applyRule | a relational meaning of expressions and of `<out>` given independently of the interpreter's state; induction over expressions; blanks by a relation closed under all instructions and macro calls |
| C79 | the interpreter of postchunk.cc (as C76), processAppend, processRule, applyRule | as C78, with the pieces of word-bound blanks that an expression brings as a further part of its meaning; induction over expressions with an invariant on what is collected for the lexical unit and for the variable |
| C80 | all of tsx_reader.cc over the sequence of nodes of xmlTextReader; PatternList as the list of calls | a grammar of the ways to write a definition, given independently; each loop of the reader is run along that grammar (generic lemmas for loops that pass text and run over a list of elements); invariants for arbitrary node sequences |
| C81 | tagger.cc: the constructor, get_file_arguments, parse_unsigned_long_int, the g_/r_/s_/t_ functions; tagger_flags.cc, shell_utils.cc; getopt_long reports the options | the lines of the usage as a datatype with spellings and the list of actions of each; the loop over options by induction with the set of slots already taken; strtoul on numerals |
| C82 | the actions of tagger.cc (as C81) on a file system, the algorithms as parameters | induction over the actions, each of which says which file it can write; the two worlds of a run compared |
| C83 | all of mtx_reader.cc over the sequence of nodes of xmlTextReader, with the code of C58 as what it writes | files as trees with names and a grammar of the ways to write them, both independent of numbers and code; induction over the grammar: the reader runs along it, and the numbered expression it writes means what the named one means, with the tables of strings, sets, slots and globals as invariant; then C58 |
| C84 | all of trx_reader.cc over the nodes of xmlTextReader; TransferData::write, TransferBase::read, the collection of rules and macros from the tree | a file as an abstract value and a grammar of the trees that write it; the loops of the reader run along the tree (mutual induction over trees for actions and macros), folds over the definitions; maps; the codecs of C29 |
| C85 | as C84 | from the condition of acceptance of C84; the cache of states of the patterns as invariant |
| C86 | all rules of apertium-prelatex.l and apertium-postlatex-raw.l and the table of latex_accentsmap.cc, over a model of a flex scanner | a document as a sequence of pieces, each with what may follow it; for each piece the rule that wins is determined (rules that cannot match a known beginning are removed, the others are bounded by their patterns), then induction over the document through both scanners |
| C87 | findBoundary, adjust (both loops, with out-of-range subscripts as failure), the reading and rewriting of runs, process over the tree, printNl2spc | the boundary as the first acceptable place; an invariant of the two-index loop in terms of sums of prefixes: the end of every finished run is the boundary found from its old end; then induction over the tree |
| C88 | filter_ambiguity_classes and outputOriginal over the word reader of C20 | the loop keeps the first word of each class (induction over the corpus with the set seen); its output is shown to be a well-formed corpus itself, which the reader's theorem then reads |
| C89 | the three interpreters again, on libxml2 trees and with evalStringCache; the specification says which abstract rule an element denotes | simulation: the state is the same and every cache entry is what its element says in the role it has (value or left side of a let), which every step keeps; then the main loop with the one interpreter and with the other; every action valid for one of the three DTDs denotes a rule (content models and attribute lists by induction on the tree), and every valid file has rules and macros as the program looks them up |
| C90 | TaggerWord::match (the rewriting of the pattern and the cache), add_tag with prefer rules, discardOnAmbiguity, over the regular expressions of C20 | the rewriting is shown to give the text of an abstract expression; what that expression matches is characterised by tags, using that brackets align; add_tag by induction over the analyses, with the first of the tag or the last preferred one kept |
| C91 | apertium-postlatex.l as a second flex scanner, with the table of accents, behind the prelatex of C86 | the piecewise steps of C86 again for the other rules, and steps for number signs; then induction over the document; the three corollaries from the specification |
| C92 | apertium_tagger_apply_new_rules.cc on the model of the files of the taggers (C29), of the definition (C80) and of apply_rules (C21) | composition of C29, C80 and C21; the numbers of tags are translated to names by injectivity; the two violations by evaluation of the whole program on a small tagger |
| C93 | apertium_tagger_readwords.cc on the model of the stream of C20 and the collections of C24 | induction over the words, with the invariant that the collection only grows behind the classes of the parameters |
| C94 | tagger_data_percep_coarse_tags.cc (`coarsen`), the cache and EXAMBGSET of perceptron_spec.cc, against the recogniser run of C20 (`classOf`) | induction over the text of the analysis with the invariant that a dead recogniser stays dead; the cache by the invariant that each entry is what would be found |
| C95 | the similarities, the lengths and the thickness in tmx_book_to_matrix.cc, tmx_translate.cc and tmx_aligner_tool.cc, and the alignment of C35 on them | induction over the merge of the two ordered lists, with bags of words as specification; the hypotheses of C35 follow from the bounds of the similarities |
| C96 | outputTU of tmx_builder.cc as a whole: the splitting of C64, the lines, their reading in tmx_dictionary.cc, the aligner with the similarities of C95, its output, and the reading of C62/C63 | refinement: each pass is shown to be the inverse of the one before on clean sentences, by induction over the lines; then composition with C35, C62, C63, C64 and C95 |
| C97 | the operators of feature_vec.cc on ordered maps, with the comparison of keys, and what is printed as explanation | induction over the maps: the comparison is the lexicographic order; each operation keeps the map ordered and changes the values as it should; the walk through two maps is the sum of products |
| C98 | generateTMX of tmx_builder.cc around the units of C63, and a grammar of XML documents as specification | derivations in the grammar, by induction over items, units and attributes; for the violations an automaton that every document passes (no `<` within a tag), by induction over derivations |
| C99 | main of apertium_transfer.cc after getopt_long: the loop over the options, and the plan of actions for the files, each of which may fail | induction over the options, with the settings so far generalised; cases over the number of files |
| C100 | the shell functions apply_invert_setvars, invert_setvar, setvar_wrap, setvar_unwrap and run_mode_wblank as functions of texts, with awk's records and gsub and bash's read, echo and $() | induction over the text line by line, and over the preferences with those already written generalised; split and join are inverse |
| C101 | the main part of apertium-header.sh: bash's getopts over the raw arguments, and what is decided from the options and files; the translation functions are names only | induction over the words of options, each a cluster of letters; the settings are those of a separate reading of the list of options, by induction from its end |
