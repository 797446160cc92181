# Formal model of apertium/apertium in Lean 4

This file is written by `tools/design.py` from `tools/design_head.md`, `properties.jsonl`, `MANIFEST.json` and the citations in the Lean files.
The first version (before the proofs) is in the git history; its plan table is kept at the end.

## Method

The code is C++; it is read as text and modelled function by function as total, computable Lean functions over `List Char`, `Nat`, `Int`, `ℚ`, `Option`
and plain structures.

* `Verif/<Component>/Model.lean` (or a name that says more, e.g. `Hmm.lean`) – the model; each definition cites file and lines in /repo.
* `Verif/<Component>/Spec.lean` (or the section *Specification* of a `Props` file) – the small independent specification used in the statements.
* `Verif/<Component>/Proofs.lean` – helper lemmas.
* `Verif/<Component>/Props.lean` – property theorems (named after the property, e.g. `C01_…`), each with an `example` showing that its hypotheses are met by a
  concrete non-trivial case.

Conventions

* A text is a `List Char`. End of file is the end of the list (the code uses `U_EOF` = 0xFFFF; inputs containing the noncharacter U+FFFF are outside the model).
* A C++ loop that has no end-of-file check is modelled with an explicit outcome `diverge`; `exit()`, exceptions and failed assertions are an explicit outcome;
  undefined behaviour is an explicit outcome `ub` (or `none`).  A theorem that says `= .ok …` says that none of these happens.
* If the code violates a property, the negation is proved with a concrete witness (`…_violation`) and the strongest true part is proved; where that part is less
  than the property, the claim has the status *partial* and the note says what is missing.
* Loops over a text that need a bound for Lean's termination checker carry fuel; the theorems hold for every fuel that is at least the length of the text, or the
  program is started with enough of it by definition.

## Trusted base

* The kernel of Lean 4.33.0.  No axioms of our own; every theorem of the manifest depends on a subset of `propext`, `Classical.choice`, `Quot.sound`
  (checked with `#print axioms` for each of them; two depend on none).
* Mathlib is used only for `ℚ`, ordered fields, finite sums and the tactics `ring`, `linarith`, `field_simp` in the files on training and averages
  (Tagger/BaumWelch*, Tagger/Train*, Tagger/Lsw*, Percep/*, Unigram/Train*) and on sentence alignment (Tmx/*); everything else uses core Lean.
* The reading of the C++ code (each definition cites what it models, and says where it simplifies).
* The behaviour of the libraries that the code calls.  None of their sources is in the sandbox.  Assumed are:
  - `InputFile` (lttoolbox): `get()` returns the next code point or `U_EOF`; `peek()` the same without consuming; `unget` puts one back; `eof()` is true only after a
    `get` or `peek` has met the end; `readBlock(a, b)` copies up to the closing character, with escapes; `readBlank`, `finishWBlank` the same for blanks.
  - `Compression::multibyte_write/read`, `string_write/read` as written down in `Serial/File.lean`; `Serialiser`/`Deserialiser` of numbers, strings and doubles, and the
    file format of `PatternList`: any format that can be read back.
  - `std::map`, `std::set`, `std::vector`, `std::sort`, `std::stable_sort`, `std::partial_sort_copy`: what the C++ standard promises, no more.
  - ICU case mapping (`u_tolower`, `u_toupper`, `u_isupper`) and regular expressions: parameters with the laws stated at the theorem, where laws are needed.
  - flex: at each position the longest match of all active rules, of equal ones the first; `^` at the beginning of a line only; unmatched bytes are copied; case-insensitive ASCII letters
    (`%option case-insensitive`).  The expressions of the `*-format.xml` files are translated by `tools/gen_formats.py` into terms with a semantics in `Format/Flex.lean`; the translation is trusted.
    `utf8::is_valid` is written down in `Format/Utf8.lean`; `to_ustring` and its inverse are the identity on valid UTF-8 and arbitrary otherwise; `tmpnam` gives fresh names.
  - libxml2: not modelled; rules, modes, specifications are given as trees or lists.
* Assertions are on (the autotools build does not define `NDEBUG`).
* Numbers.  `int`, `size_t` are unbounded unless a definition says otherwise.  Tagging (Viterbi) is proved for any type of weights with a total order and a
  monotone product, which covers rounded IEEE doubles without NaN; training (Baum-Welch, Kupiec, LSW, unigram scores, perceptron) is proved in exact rational arithmetic, and
  rounding is outside the model.  Serialisation treats doubles as their 64 bits.

## What is not modelled

* File opening, command lines (`apertium_*.cc` mains; that of `tagger.cc` is, C81), locale, memory allocation, stdio buffering (flush is modelled only as a position in the output),
  messages on stderr.
* The XML reader of `caps_compiler.cc` and the file format of its output (rules are given as trees).
* XML reading: libxml2 itself (the rules are taken as the tree it makes, with a text node for every attribute value; C89; `tsx_reader.cc`, `mtx_reader.cc`, `trx_reader.cc` and `xml_reader.cc` are modelled on the nodes that libxml2 reports: C80, C83, C84).
* The operations of lttoolbox on transducers, which are modelled as described in Pattern/Model.lean and Crx/Model.lean, and its minimisation, of which only what `Minimal` says is assumed (Pattern/Exist.lean and Crx/Exist.lean show that it can be done).
  The transfer loop is proved for any automaton.
* `transferpp.cc`, `apertium_perceptron_trace.cc`, the TMX dictionary tools (in `tmx_dictionary.cc` all but the reading of sentences, and in `tmx_translate.cc` and `tmx_book_to_matrix.cc` what needs a dictionary, which apertium-tmxbuild never has), `TMXBuilder::editDistance` and what is only called from comments, the matxin mode of
  `deformat.xsl` and the shell and Python scripts, except where the table of citations below names lines of them.
* Concurrency: none of the programs has any.  Crash points: the programs keep no state on disk other than the files written at the end; a truncated file is an outcome of
  the readers (`none`).

## Where the code does not do what a user would expect

Each of these is a theorem with the suffix `_violation` (or a clause of a `_partial` theorem) unless it says *reading only*.

* `apertium-pretransfer` does not terminate on some unfinished inputs (C05).  `apertium-wblank-attach` does not reset its stack of word-bound blanks at NUL (C09) and mishandles escapes in them (C08).
* `apertium-multiple-translations`: a default translation that is the second of three or more is not put first; a `[|]` in a blank makes a single variant look like several; an unclosed `[` loops for ever; a
  translation ending in a backslash is read past its end (C71); a word with an empty translation that no rule matches is dropped (a clause of C71).
* `<or>` … in the perceptron machine: true operands of `or` and false operands of `and` after the first, `for-each` around `out`, empty loops, `join` with a leading empty
  string, macros in the global condition, operand order left to the compiler (C58).
* HMM: asking for the class most similar to an unknown set of tags overwrites the open class, so that later answers depend on earlier queries (C25); the words pending at the end of the text are lost when the last word is ambiguous (C20).
* Training from a `.tsx` loses the `<discard-on-ambiguity>` entries, because `TaggerData::copy` does not copy them (C29); reading a tagger into a used object accumulates rules; the
  discards are delimited by the end of the file, so nothing can follow.
* LSW: `else if` skips the test of enforce rules for repeated tags (C22); discard-on-ambiguity loses analyses (C23).
* Averaged perceptron: see C32, C57.
* Capitals: `apertium-extract-caps` loses the text of a unit without analysis and takes a `[[/]]` directly before a unit for a word-bound blank of it (C31);
  `apertium-restore-caps` drops word-bound blanks that are not before a unit, those of units with an empty surface form, and the pieces after `c:`; a trailing blank or the end of the input
  counts the matches at the last word a second time (C59, C60).
* Help texts with a word of 80 characters or more are never printed: the wrapping loops for ever (C34).
* apertium-tmxbuild: two sentences are never aligned with one (the score is computed but not stored), so that exchanging the books changes the alignment (C35); sentences before the first aligned one and, with
  `-cautious`, the end of both books are lost; an empty book is undefined behaviour (C62); no unit with two segments is ever written, because the condition is the wrong way round (C63); a placeholder at
  the start of a segment is cut in two (C63); the text after the last full stop is lost and a blank without end aborts (C64).
* Format filters: with `-n` a full stop at the end of a paragraph is lost, with `-o` the mark of a header stays in the document, one byte that is not UTF-8 makes the text after it disappear, NUL bytes are lost, and the
  entities that the format files mark as preferred are never put back, because the reformatter looks up single bytes (C65).
* apertium-gen-modes: the untrimmed debug modes have the trace option twice, an empty attribute is a null pointer, a mode with the name of another replaces it silently (C69); a path with a single quote makes the file unreadable for a
  shell, and `-l` without `-f` is taken for an installation, so that modes without `install="yes"` are not written (C70).
* Patterns of rules: an escaped character or a capital letter in the lemma of a `cat-item` can never match; `*.*` means `*`; a `cat-item` with a lemma and no tags matches every word without tags (its `name` is used);
  an escaped `$` in a word is taken for the end of the word; a rule that rejects the words it matched hides later rules for the same words (C72).
* The other `_violation` theorems are listed in the table below.
* `.mtx` files: one with a `<beam-width>` is never accepted, nor a `def-set` with members, `strlen`, `arrlen`, a `for-each` among instructions, a macro that is a slice of a list, `<macro/>`; `toklen` and `<inst>` never
  end; the arguments of a macro are put at the place that is the number of the argument (`1 < a` with 5 becomes `5 < 1`); the types of variables are kept between templates, so that two good templates can be rejected together;
  a condition for all features that calls a macro has no value for it (C83).
* *Reading only*: `FILTERIN` of the perceptron machine erases with one iterator; the operand of `<inst>` is overwritten; `prg_id` is a `char`.
* *Reading only*: supervised HMM training dereferences the untagged word before testing it for NULL; a copied `Collection` keeps pointers into the map of the original.
* `apertium-compile-caps` and `apertium-restore-caps`: in the tags of a rule `*.?` means `*` and `+.?` means `+`, in a lemma `**` means `*`; an escaped `/` in a word is taken for the end of the form; a lemma with a
  character outside the basic multilingual plane never matches (the compiler uses UTF-16 units, the restorer code points); a unit without analysis is matched by no rule in which the lemma is not given; a unit with
  the tag `<$>` and escaped slashes makes a rule match two words in one, and the program writes before the start of its array (C73).
* `apertium-transfer`: a rule whose positions go beyond its pattern gets words that were read ahead for longer patterns of other rules, so that adding a rule that is not used changes what another one writes (C74).  With null flush,
  the word-bound blanks of variables are not reset with the variables (C46).
* `apertium-interchunk`: `<let>` and `<modify-case>` with a position outside the pattern, and `<call-macro>` with too few or too many arguments, read or write outside an array, where `<clip>` warns; `<clip part="content">` of a
  word without braces ends the program with an exception; the lemma of a chunk without tags contains what is inside it; `<lu>` and `<lu-count>` end the program at the first chunk that matches (C75).
* `apertium-postchunk`: a word without braces is silently dropped; a pattern of two chunks loses the words of the second; a macro without parameters, which the other two programs call, ends the program; a macro call with
  a position beyond the words of a chunk without words reads after the end of the array (the check for this takes word 1, which does not exist); an assignment to a position beyond the words of the chunk is undefined behaviour
  where reading is ignored (C76); with null flush the word-bound blanks of variables are kept (C46).
* Parts of words in rules: an escaped `<` in a lemma begins the tags, so that `lem` is cut there; the `#` of `C#` belongs to neither `lemh` nor `lemq`, and an escaped `#` is taken for the beginning of an invariable part; an escaped
  `{` in the name of a chunk is taken for the beginning of its content (C77).
* `apertium-postchunk`: the word-bound blanks that came with the value of a variable are lost when it is assigned to another variable (C79).
* Tagger definitions: a label that no definition has (a misspelt one) is silently the tag LPAR, and adds a state to the tagger; a tag used in a sequence before its definition cannot be defined any more; `<label-item ...></label-item>`
  in a `label-sequence` is rejected; sections in another order and everything after an unknown section are silently ignored; a definition without patterns swallows the next; a reader used for a second file keeps the preferences,
  discards and patterns of the first (C80).
* `apertium-tagger`: the flags of `-b` and `-e` are not initialised, so that `-b` can be rejected as given twice and a training can skip errors that nobody asked to skip; `-h` of the usage is not accepted; `-u 12` is; `-r` and
  `-t` with `-x` abort; `-1` iterations are 2^64 - 1 (C81).  Retraining (`-r`) throws the probabilities of the tagger away, reads standard input as the dictionary, and iterates from uninitialised memory; a tagger file is lost
  if the program is stopped between opening and writing it (C82).
* Rules: the call of a macro that is not defined (also of the name of a category, which the document type lets pass) runs the first macro of the file; variables and lists that are not defined, and parts that are not defined
  in macros, are not reported (C85).
* LaTeX: accents that are not in the table (`\v{s}`, `\k{a}`, `\=o`, and `\'{i}`) come back as `<v{s}/>`; `\'\i` without braces becomes `j`; `\#` becomes the undefined command `\HASH` and `#1` becomes `\#1`; `\begin{my-env}` is torn in two;
  `\verb|<b>|` and comments with tags are changed; an option of `\usepackage` outside ASCII gains a bracket (C86).  *Reading only*: behind `\$` the text is taken for a formula and not translated.
* `apertium-adapt-docx`: text moves across whatever stands between two runs (a tab, a hyperlink, a run with two texts), so that the order of the text changes; a run whose text moves away is removed with the line breaks, tabs or pictures
  in it; a text divided by a comment is doubled, a text in a CDATA section can be lost; a hyphen at the end of a paragraph loses its format (C87).
* `apertium-filter-ambiguity`: a word whose only analysis is empty is written as `^a$`, and swallows the next word when the output is read; a discard rule can make the class of a line another than the class it was written for (C88).
* Prefer and discard rules: the names of tags go into the regular expression unescaped, so `<a+>` does not fit the tag `a+` but fits `aa`; a star can take an escaped angle bracket of the lemma for a tag; the search is not anchored, so that a rule `n.sg` also fits `<n><sg><gen>` (C90).
* `apertium-postlatex`: `ł` becomes `\l` without braces, so that `ład` comes back as `\lad`; a character beyond U+FFFF is cut to sixteen bits; accented letters of verbatim text become commands (C91). It handles number signs, which `apertium-postlatex-raw` does not.
* `apertium-tagger-apply-new-rules` numbers the tags by the new definition, so that with the tags in another order rules are applied to the wrong tags; it loses the discards of the tagger (C92).
* `apertium-tagger-readwords` reports unknown words as words with an ambiguity class out of range (C93).
* Coarse tags: an analysis with a tag that no pattern of the definition names has the tag kUNDEF for the HMM tagger, but for the perceptron tagger the coarse tag it would have without that tag; an escaped `<` in a lemma makes the HMM tagger find none (C94).
* Similarity of sentences: the comparison ends with the shorter of the two ordered lists of words, so that numbers that come last are not seen; `1` and `1 2 3 4` get the ten extra points for numbers that agree (C95).
* `apertium-tmxbuild` hands the sentences to the aligner one per line, but a sentence may contain newlines: it is then aligned as several sentences, and the empty line between two sentences as one more; each text ends with an empty sentence of its own (C96).
* Feature vectors: what the perceptron tagger prints as the features of a word has the value 1 for a feature that occurs twice, while the score counts it twice (C97).
* `apertium-tmxbuild`: a column that ends in two placeholders with a space between them gives a segment that ends in `<ph/`, and the TMX file is no XML (C98).
* `apertium-transfer` empties the output file before it looks for the input, the rules and the dictionary; with `-b` or `-n` and five files it reads a dictionary that it does not use (C99).
* A preference with a `>` in `AP_SETVAR` comes out in the translation as `[<STREAMCMD:SETVAR:…>]`; a value that ends in `=` loses it (C100).
* `apertium -m memory` without `-o` gives `lt-tmxcomp` an empty direction, against the usage message; `apertium -z en-es in.txt -u` writes to a file named `-u` (C101).

## Properties

| property | title | status | theorems | note |
|---|---|---|---|---|
| C01 | apertium-posttransfer collapses spaces and nothing else | proved | `Post.C01_collapses`, `Post.C01_unique`, `Post.C01_no_double_space`, `Post.C01_keeps_others`, `Post.C01_idempotent` | all texts |
| C02 | apertium-pretransfer copies everything outside lexical units | proved | `Pre.C02_copies_outside_words`, `Pre.C02_complete_stream` | all well-formed streams, with and without surface forms, followed by anything |
| C03 | apertium-pretransfer splits multiwords at + and moves the invariable part | proved | `Pre.C03_C04_split`, `Pre.C03_C04_split_surface` | delimiters do not occur inside lemmas, tags, queues (see C36 for escaped ones) |
| C04 | apertium-pretransfer gives every part of a split multiword the word-bound blank | proved | `Pre.C03_C04_split`, `Pre.C03_C04_split_surface` | same theorem: the word-bound blank is part of the separator written between parts |
| C05 | apertium-pretransfer always terminates | partial | `Pre.C05_terminates_partial`, `Pre.C05_diverges_only_in_surface_skip_partial`, `Pre.C05_violation` | the code violates it: with surface forms a truncated word makes the skipping loop run for ever (pretransfer.cc:81); proved without that option |
| C06 | apertium-cleanstream keeps exactly the lexical units | proved | `Clean.C06_exact`, `Clean.C06_units`, `Clean.C06_stray_caret` | all well-formed streams, all option settings |
| C07 | apertium-wblank-detach closes every word-bound blank once | proved | `Detach.C07_closes_once`, `Detach.C07_count` | all well-formed streams |
| C08 | apertium-wblank-attach distributes the open word-bound blanks | partial | `Attach.C08_distributes_partial`, `Attach.C08_padding`, `Attach.C08_violation` | proved for word-bound blanks without escapes; the code violates it for escaped characters, which are written unescaped (wblank-attach.cc:155) |
| C09 | wblank-attach treats NUL as a full reset | partial | `Attach.C09_null_flush_partial`, `Attach.C09_violation_ub`, `Attach.C09_violation_blank` | the code violates it: at NUL wb_stack and in_wblank are not reset (wblank-attach.cc:80-99); proved when the first request is complete |
| C10 | null-flush isolation of the stateless filters | proved | `Post.C10_posttransfer_null_flush`, `Pre.C10_pretransfer_null_flush`, `Detach.C10_detach_null_flush`, `Detach.C10_detach_null_flush_wf` |  |
| C11 | transfer conditions are Boolean logic | proved | `Transfer.C11_conditions` | all conditions as the DTD allows (one child in <not>), all states |
| C12 | choose runs exactly one branch | proved | `Transfer.C12_choose_first`, `Transfer.C12_choose_otherwise`, `Transfer.C12_choose_none`, `Transfer.C12_transfer_choose` | for every interpreter (transfer, interchunk, postchunk share the code) |
| C13 | clip/let laws of lexical units in transfer | proved | `Transfer.C13_let_clip`, `Transfer.C13_read_after_write`, `Transfer.C13_write_frame`, `Transfer.C13_write_absent`, `Transfer.C13_write_same`, `Transfer.C13_word_frame`, `Transfer.C13_queue_kept`, `Transfer.C13_read_after_write_needs_stability`, `Transfer.C13_no_side_not_read_back` | the attribute must recognise the new value at the same place (shown to be necessary); side given (without it reading and writing use different sides) |
| C14 | word-bound blanks are merged without loss | proved | `Transfer.C14_combine`, `Transfer.C14_empty`, `Transfer.C14_assoc` | blanks whose pieces are escaped text |
| C15 | transfer loses no blanks | proved | `Transfer.C15_blanks` | all rules, macros at any depth |
| C16 | left-to-right longest match in transfer | partial | `Transfer.C16_longest_match_partial`, `Transfer.C16_total_partial`, `Transfer.C16_reject_after_shift_violation`, `Transfer.C16_shift_after_shift_violation` | the loop shared by transfer, interchunk and postchunk, for every pattern automaton and every rule action; the code violates it when a rule is rejected right after a rule rejected with shifting (prev_last is stale: words are lost), the other cases are proved |
| C17 | rule compilation to regexps keeps attribute values | partial | `Regex.C17_exact_partial`, `Regex.C17_search_partial`, `Regex.C17_hyphen_violation`, `Regex.C17_bar_violation` | proved for items without regular-expression characters other than + * ?; the code violates it for the others (only + * ? . are escaped, transfer_regex.cc:55,73): a hyphen can become a range, a bar an alternative |
| C18 | chunk words are split at the first unescaped brace | partial | `Chunk.C18_split`, `Chunk.C18_word`, `Chunk.C18_set`, `Chunk.C18_read`, `Chunk.C18_read_back`, `Chunk.C18_lemma_without_tags_violation`, `Chunk.C18_bracket_violation` | see the violation theorems for where the code departs from the property |
| C19 | the HMM tagger finds the most likely tag sequence | proved | `Tagger.C19_viterbi`, `Tagger.C19_stream`, `Tagger.C19_whole_text`, `Tagger.C19_classes` | for every ordered type of weights whose product is monotone (this covers rounded non-negative doubles without NaN); whole texts for exact arithmetic |
| C20 | the HMM tagger outputs each word exactly once | partial | `Tagger.C20_stream`, `Tagger.C20_once`, `Tagger.C20_words`, `Tagger.C20_ambiguous_end_violation`, `Tagger.C20_multiword_violation`, `Tagger.C20_no_analysis_violation`, `Tagger.C20_truncated_violation`, `Tagger.C20_undo_violation` | from text to text for every well-formed stream without multiwords; with multiwords the code can write parts of two analyses or use a deleted word; units without analyses and truncated input lose text |
| C21 | forbid and enforce rules are honoured by the HMM transition matrix | partial | `Tagger.Train.C21_rules_partial`, `Tagger.Train.C21_never_zero_violation`, `Tagger.Train.C21_certain_violation` | the code writes 1e-10 and then normalises, so a forbidden transition never gets zero and can even become certain; proved: the exact values, rows sum to one |
| C22 | the LSW tagger respects forbid/enforce rules | partial | `Tagger.Lsw.C22_valid_partial`, `Tagger.Lsw.C22_sound`, `Tagger.Lsw.C22_repeated_violation` | proved for triples whose first two tags differ; for a repeated tag the code does not check the second bigram against the enforce rule (else if, lswpost.cc:213) |
| C23 | discard-on-ambiguity removes exactly the discardable analyses | partial | `Tagger.C23_discard_partial`, `Tagger.C23_safe`, `Tagger.C23_lost_violation`, `Tagger.C23_length_violation` | proved if the analysis of the lowest tag does not match; otherwise the code loses the next analysis |
| C24 | ambiguity class table is a bijection that survives save and load | proved | `Tagger.C24_collection` | any sequence of insertions |
| C25 | unknown ambiguity classes map to the smallest known superset, independently of history | partial | `Tagger.C25_similar_partial`, `Tagger.C25_history_bound`, `Tagger.C25_necessary`, `Tagger.C25_history_violation`, `Tagger.C25_open_class_violation`, `Tagger.C25_superset_violation` | the code violates it: the search writes through a reference to the open class (tagger_utils.cc:151), so the answer depends on earlier queries |
| C26 | unigram training counts are exact and order independent | partial | `Unigram.C26_counts`, `Unigram.C26_keys`, `Unigram.C26_unknown`, `Unigram.C26_permutation`, `Unigram.C26_totals`, `Unigram.C26_types`, `Unigram.C26_choice_model1`, `Unigram.C26_score_model2`, `Unigram.C26_score_model3`, `Unigram.C26_choice_violation`, `Unigram.C26_nul_stops` | counters, totals and types are exact for all three models and the choice of model 1 does not depend on the order of the corpus; the coefficient does, so models 2 and 3 (with the added ones) may choose differently for the same corpus in another order; exact arithmetic |
| C27 | the unigram tagger outputs the best scoring analysis | proved | `Unigram.C27_best`, `Unigram.C27_output`, `Unigram.C27_first_keeps_all` | any score whose comparison is that of numbers (no NaN) |
| C28 | lexical-unit text round trip | partial | `Unigram.C28_roundtrip`, `Unigram.C28_reader_sound`, `Unigram.C28_reprint`, `Unigram.C28_reprint_violation` | printing and parsing gives the analysis back for all well-formed analyses; parsing and printing gives the text back for lemmas without #; the code moves a lemma queue before the tags |
| C29 | tagger models survive serialisation | partial | `Serial.C29_hmm`, `Serial.C29_hmm_again`, `Serial.C29_hmm_tags`, `Serial.C29_hmm_writes`, `Serial.C29_lsw`, `Serial.C29_lsw_writes`, `Serial.C29_unigram`, `Serial.C29_perceptron`, `Serial.C29_training_discard_violation`, `Serial.C29_read_twice_violation`, `Serial.C29_concatenation_violation` | all four taggers come back as written, and the HMM tags as before; not kept: emission probabilities outside the ambiguity class, LSW cells up to ZERO, the discards of a definition when training, the old-format end of data when something follows; how lttoolbox writes numbers, strings and patterns is assumed |
| C30 | NUL handling in the unigram and SPV tagger streams | partial | `Unigram.C30_sentence_partial`, `Unigram.C30_unigram_violation`, `Unigram.C30_sentence_violation` | the unigram tagger never writes a NUL; the sentence tagger loses those directly after a lexical unit and copies the others |
| C31 | extraction of capitalisation keeps the stream | partial | `Caps.C31_extract_exact_partial`, `Caps.C31_extract_total`, `Caps.C31_lemmaPrefix_spec`, `Caps.C31_upToLastTags_unique`, `Caps.C31_extract_unanalysed_violation`, `Caps.C31_extract_close_violation` | holds when every unit has an analysis and no [[/]] stands directly before a unit; a unit without analysis loses its text, a closing mark is merged into the next unit's word-bound blank; lttoolbox's reading functions and getcase are assumed |
| C32 | averaged perceptron weights | partial | `Percep.C32_average_partial`, `Percep.C32_keys`, `Percep.C32_zero_violation`, `Percep.C32_shared_feature_violation` | exact means of the running weights when no mean is zero; the code erases an entry whose total is zero and then increments the erased iterator, which is undefined and happens whenever the right and the chosen analyses of the only updates share a feature |
| C33 | wblank mode rewriting is idempotent | partial | `Mode.C33_idempotent_partial`, `Mode.C33_stages`, `Mode.C33_kept`, `Mode.C33_modern`, `Mode.C33_option`, `Mode.C33_option_violation`, `Mode.C33_lines_violation` | idempotent for every text without -z; with -z the code is not (the helpers get the option only the second time); lines are joined without a separator |
| C34 | help texts are wrapped without loss | partial | `Help.C34_words`, `Help.C34_width`, `Help.C34_fits`, `Help.C34_table`, `Help.C34_terminates_partial`, `Help.C34_table_terminates_partial`, `Help.C34_long_word_violation`, `Help.C34_margin_violation` | words, width and table hold whenever the function returns, for margins from 1 to 79; it returns if every word fits behind the margin; it loops for ever on a word of 80 or more characters, and with margin 0 on a text with a line break |
| C35 | TMX sentence alignment is optimal | partial | `Tmx.C35_optimal_partial`, `Tmx.C35_tool_partial`, `Tmx.C35_two_to_one_violation`, `Tmx.C35_exchange_violation`, `Tmx.C35_start_violation` | optimal among alignments without two-for-one pieces: the value of such a piece is computed but never stored, so it is never chosen; the trail leaves out the sentences before the first aligned one; exact arithmetic, scores up to 1e6, books up to 3e6 sentences (int overflow of the code for books above 46340 sentences is outside the model) |
| C36 | apertium-pretransfer honours escapes inside words | partial | `Pre.C36_violation`, `Pre.C36_escapes_partial` | the code violates it: an escaped $ ends the word |
| C37 | apertium-wblank-detach never loses text | partial | `Detach.C37_detach_keeps_partial`, `Detach.C37_violation` | the code violates it for a blank left open at the end of the input |
| C38 | output units carry the word-bound blanks of the words they are made from | partial | `Transfer.C38_lu_wblank`, `Transfer.C38_single_word`, `Transfer.C38_mlu_loses_wblank_violation` | proved for <lu>; the code violates it for a variable assigned after an <mlu>, which leaves in_lu set (transfer.cc:337-378) |
| C39 | a rule that rejects itself leaves no trace | partial | `Transfer.C39_reject`, `Transfer.C39_reject_silent_partial`, `Transfer.C39_reject_writes_blanks_violation` | the code violates it: the blanks that are not single spaces are written on rejection and read again; proved when all are single spaces |
| C40 | variables and macros in transfer | proved | `Transfer.C40_let_var`, `Transfer.C40_macro`, `Transfer.C40_words_fixed` | expressions that build no lexical unit; macros called with the declared number of arguments |
| C41 | unfolding a chunk | partial | `Chunk.C41_unfold_partial`, `Chunk.C41_last_blank_violation` | proved for chunks that do not end with a plain character of a blank: the code loses it (endChunk is size()-2, postchunk.cc:821) |
| C42 | what a postchunk rule sees of a chunk | partial | `Chunk.C42_rule_sees_partial`, `Chunk.C42_leading_blank_violation`, `Chunk.C42_escaped_bracket_violation` | proved for chunks that begin with a word; the code moves a leading blank to the end of the blank that follows the chunk, and misreads a word-bound blank that ends with an escaped ] |
| C43 | transfer programs read a stream as words and blanks without loss | partial | `Token.C43_chunk_tokens`, `Token.C43_transfer_tokens_partial`, `Token.C43_wblank_escape_violation`, `Token.C43_unclosed_superblank_violation`, `Token.C43_unclosed_chunk_violation`, `Token.C43_unclosed_wblank_violation` | proved for interchunk and postchunk; for transfer if no word-bound blank begins with an escaped character (there the code is wrong); an unclosed superblank, chunk or word with word-bound blank makes the programs loop for ever |
| C44 | case handling can be left to the dictionary | partial | `Chunk.C44_default_partial`, `Chunk.C44_rule_violation` | holds for the default action; the code ignores the option in splitWordsAndBlanks, which rules use |
| C45 | interchunk without matching rules is the identity | proved | `Token.C45_interchunk_identity` | for every pattern automaton that accepts nothing |
| C46 | null flush keeps requests apart | partial | `Token.C46_null_flush_partial`, `Token.C46_inword_violation`, `Whole.C46_transfer_violation`, `Inter.C46_interchunk_partial`, `Postchunk.C46_postchunk_violation` | interchunk and postchunk, parts that are well-formed streams; the code keeps inword after a part that ends inside a word; apertium-transfer and apertium-postchunk keep the word-bound blanks of variables from one part to the next |
| C47 | a word with translations is taken apart correctly | proved | `Bil.C47_rule`, `Bil.C47_default`, `Bil.C47_default_lu`, `Bil.C47_pattern` | words in which the special characters are escaped |
| C48 | text no rule matches passes through the three transfer stages unharmed | partial | `Bil.C48_no_rules`, `Bil.C48_digit_tag_violation`, `Bil.C48_brace_violation` | proved for texts with special characters escaped and no tag beginning with a digit; violated by tags that begin with a digit |
| C49 | initial HMM parameters are the smoothed counts | proved | `Tagger.Train.C49_kupiec`, `Tagger.Train.C49_supervised` | exact rational arithmetic instead of double |
| C50 | training of the sliding-window tagger shares one unit of weight per place of the text | proved | `Tagger.Lsw.C50_parameters`, `Tagger.Lsw.C50_refused`, `Tagger.Lsw.C50_mass` | exact rational arithmetic instead of double |
| C51 | the sliding-window tagger writes every word once with the best tag | partial | `Tagger.Lsw.C51_words_partial`, `Tagger.Lsw.C51_tail_violation`, `Tagger.Lsw.C51_no_words_violation`, `Tagger.Lsw.C51_flush_violation`, `Tagger.Lsw.C51_empty_request_violation`, `Tagger.Lsw.C51_unknown_violation` | proved for all words but the last; the code never writes the last word (which carries the text at the end), reads the first tag of an empty set for unknown words, and delays text past the NUL in null-flush mode |
| C52 | Baum-Welch training computes expected counts | proved | `Tagger.Train.C52_counts`, `Tagger.Train.C52_parameters`, `Tagger.Train.C52_relative`, `Tagger.Train.C52_iterations`, `Tagger.Train.C52_impossible_violation` | exact rational arithmetic instead of double, for positive parameters (which initialisation gives and training preserves); transitions never expected get 1e-10 before normalisation |
| C53 | the unigram tagger changes nothing but the lexical units | proved | `Unigram.C53_unigram_stream` | NUL is lost, see C30 |
| C54 | the sentence (perceptron) tagger changes nothing but the lexical units | proved | `Unigram.C54_sentence_stream`, `Unigram.C54_units`, `Unigram.C54_boundary` | NUL see C30; tagSentence is any function that gives one of the analyses of each unit |
| C55 | the perceptron's training corpus pairs words correctly | partial | `Unigram.C55_aligned`, `Unigram.C55_strict`, `Unigram.C55_skip_aligned`, `Unigram.C55_skip_violation` | with --skip-on-error the code throws away the sentence before when the streams differ at the first token of a sentence, and uses an uninitialised pointer at the first token of the streams |
| C56 | the perceptron tagger's beam search | partial | `Percep.C56_choice`, `Percep.C56_stream`, `Percep.C56_optimal_partial`, `Percep.C56_narrow_violation`, `Percep.C56_single_violation`, `Percep.C56_zero_beam_violation` | the score that is optimal leaves out the features of words with one analysis (C56_single_violation); exact arithmetic; a beam width of zero is accepted and undefined |
| C57 | perceptron training updates exactly on errors and stops | partial | `Percep.C57_sentence`, `Percep.C57_updates`, `Percep.C57_converges`, `Percep.exGold_converges`, `Percep.C57_unavailable`, `Percep.C57_shared_violation`, `Percep.C57_zero_iterations_violation`, `Percep.C57_forced_violation` | everything but the average holds of the code (exact arithmetic, sentences whose right analyses are available); averages see C32; a word whose only analysis is not the right one makes an empty update |
| C58 | perceptron feature templates mean what they say | partial | `VM.C58_features_partial`, `VM.C58_template_partial`, `VM.C58_adjust`, `VM.C58_clamp`, `VM.C58_wordoid`, `VM.C58_token`, `VM.C58_violation_or`, `VM.C58_violation_lost`, `VM.C58_violation_and`, `VM.C58_violation_order`, `VM.C58_violation_loop`, `VM.C58_violation_empty`, `VM.C58_violation_join`, `VM.C58_violation_global` | compiled templates run to the features of the specification wherever the code is right (Clean); the code is wrong for true operands of or and false operands of and after the first, loops around out, empty loops, leading empty strings of join, macros in the global condition, and for compilers that evaluate operands left to right |
| C59 | restoration of capitalisation keeps the text | partial | `Caps.C59_restore_text_partial`, `Caps.C59_restore_total`, `Caps.C59_restore_loose_violation`, `Caps.C59_restore_pieces_violation`, `Caps.C59_restore_empty_violation` | holds when the piece about capitals is the last of its word-bound blank; word-bound blanks not directly before a unit, pieces after c:, and the blank of a unit with an empty surface form are lost; the rule automaton is a parameter |
| C60 | restoration of capitalisation chooses the variant of greatest weight | partial | `Caps.C60_restore_choice_partial`, `Caps.C60_restore_choice_end_violation` | holds for sections that end with NUL directly after a word; at the end of the input (or before NUL after a blank) the matches at the last word are counted again for the words before; integer weights |
| C61 | the source case reaches the restoration rules | proved | `Caps.C61_wblank_roundtrip` | word-bound blanks that are not empty and have no piece about capitals before extraction |
| C62 | the aligned text is complete | partial | `Tmx.C62_text_partial`, `Tmx.C62_bisent_partial`, `Tmx.C62_start_violation`, `Tmx.C62_cautious_violation`, `Tmx.C62_empty_violation` | complete without -cautious, if both books have sentences, but for the sentences of one book before the first aligned one; -cautious loses the end; an empty book (accepted if the other has at most four sentences) is undefined behaviour; the scores and the choice of spaceOutBySentenceLength are parameters |
| C63 | translation units have both segments, as well-formed text | partial | `Tmx.C63_segment_partial`, `Tmx.C63_lines_partial`, `Tmx.C63_filter`, `Tmx.C63_unit_violation`, `Tmx.C63_placeholder_violation` | the segment text is right unless a placeholder stands outside a space at an end; but the condition in printTU is inverted: every unit written has an empty first segment; the columns start with the line end or tab before them, so that a placeholder at the start of a column is always cut |
| C64 | apertium-tmxbuild splits a text into sentences without losing any of it | partial | `Tmx.C64_sentences_partial`, `Tmx.C64_last_violation`, `Tmx.C64_stop_violation`, `Tmx.C64_blank_violation` | sentences are right up to the last end of a sentence before the end of the text; the rest is lost; a blank that does not end aborts the program |
| C65 | deformatting and reformatting give the document back | partial | `Format.C65_round_trip`, `Format.C65_round_trip_entities`, `Format.C65_round_trip_nodot`, `Format.C65_round_trip_eoh`, `Format.C65_nodot_violation`, `Format.C65_eoh_violation`, `Format.C65_eoh_dot_violation`, `Format.C65_utf8_violation`, `Format.C65_nul_violation`, `Format.C65_entity_violation` | holds for UTF-8 without NUL bytes, without -n and -o (with -n if the document has no full stop, with -o if the format has no header rules); otherwise full stops are lost, marks stay, or the rest of the text is lost; entities marked as preferred are never put back |
| C66 | a deformatter writes a well-formed stream and the reformatter restores every blank | proved | `Format.C66_well_formed`, `Format.C66_reformat`, `Format.C66_missing_file` | for UTF-8 without NUL bytes; flex's longest match, first rule, and to_ustring on UTF-8 are assumed |
| C67 | the stream of the text deformatter | proved | `Format.C67_txt_stream` | for UTF-8 without NUL bytes |
| C68 | markup goes into blanks and text does not | proved | `Format.C68_markup` | for UTF-8 without NUL bytes; flex's longest match, first rule, and to_ustring on UTF-8 are assumed |
| C69 | apertium-gen-modes makes the debug modes of every step and leaves the given modes as they are | partial | `GenModes.C69_mode`, `GenModes.C69_file`, `GenModes.C69_read`, `GenModes.C69_modes`, `GenModes.C69_steps`, `GenModes.C69_suffixes`, `GenModes.C69_trace`, `GenModes.C69_untrimmed`, `GenModes.C69_twice_violation`, `GenModes.C69_empty_violation` | the set of modes and their contents are exact, for files in which no name begins with @ (names are XML IDs); but the trace option is added twice in the untrimmed modes, and an empty attribute dereferences a null pointer |
| C70 | apertium-gen-modes writes the files of exactly the modes that are wanted, and a shell runs them as they were given | partial | `GenModes.C70_text`, `GenModes.C70_install`, `GenModes.C70_dev`, `GenModes.C70_once`, `GenModes.C70_quote_violation`, `GenModes.C70_local_violation`, `GenModes.C70_same_name_violation` | holds for programs and arguments without characters that have a meaning in a shell and paths without a single quote, which the program does not escape; -l without -f is taken for an installation; fs::absolute and / are parameters |
| C71 | apertium-multiple-translations writes every combination of the translations | partial | `Mult.C71_tokens`, `Mult.C71_acceptions_partial`, `Mult.C71_choices`, `Mult.C71_number`, `Mult.C71_program_partial`, `Mult.C71_second_violation`, `Mult.C71_bar_violation`, `Mult.C71_open_violation`, `Mult.C71_backslash_violation` | holds if no blank or translation has [\|] in it and blanks are closed; a default translation that is the second of three or more is not put first; a [\|] blank makes one variant look like several; an unclosed blank loops for ever; a translation that ends in a backslash is undefined behaviour; the automaton and the dictionary are parameters |
| C72 | The first rule whose pattern the words fit is used | partial | `Pattern.C72_category_partial`, `Pattern.C72_rule_partial`, `Pattern.C72_banned_partial`, `Pattern.C72_compiles`, `Pattern.C72_automaton_partial`, `Pattern.C72_longest_partial`, `Pattern.C72_word`, `Pattern.C72_chunk`, `Pattern.C72_chunk_name`, `Pattern.C72_mult`, `Pattern.C72_escaped_violation`, `Pattern.C72_uppercase_violation`, `Pattern.C72_stars_violation`, `Pattern.C72_lemma_violation`, `Pattern.C72_dollar_violation`, `Pattern.C72_rejected_violation` | holds for items without backslash, $ and neighbouring stars, and words without an escaped $ or a tag <ANY_CHAR>; an escaped character or a capital letter in a lemma matches nothing; *.* is *; an item with a lemma and no tags matches every word without tags; an escaped $ in a word is taken for its end; a rule that rejects the words hides later rules that match them; of lttoolbox it is assumed that minimize keeps what is accepted (shown to be possible) |
| C73 | the rules of apertium-compile-caps decide the case of each word | partial | `Crx.C73_compiles`, `Crx.C73_matches_partial`, `Crx.C73_weights`, `Crx.C73_bounded`, `Crx.C73_restore_partial`, `Crx.C73_text`, `Crx.C73_tags_violation`, `Crx.C73_slash_violation`, `Crx.C73_plane_violation`, `Crx.C73_noform_violation`, `Crx.C73_boundary_violation` | holds for rules with characters of the basic multilingual plane, no / in lemma or surface form, no neighbouring stars and no ? or + after * or + in the tags, and words without an escaped / and without the tags that the program uses itself; the election is stated for rules that match in one way at a word; otherwise *.? is *, an escaped / is taken for the end of the form, a lemma outside the plane never matches, a unit without analysis is matched by no rule without lemma, and a unit with the tag <$> makes the program write out of bounds; of lttoolbox it is assumed that minimize keeps what is accepted and leaves no empty labels and useless edges (shown to be possible) |
| C74 | apertium-transfer translates a text as its rules say | partial | `Whole.C74_transfer_partial`, `Whole.C74_unique_partial`, `Whole.C74_position_violation`, `Whole.C74_untranslated_violation` | an equivalence, for inputs in which special characters are escaped (and no source has an escaped $), rules without reject-current-rule whose positions are those of their patterns, and categories as in C72; a rule with a position after its pattern gets words that were read ahead for longer patterns, a unit without translation is dropped; rejection is covered by C16 for any automaton |
| C75 | apertium-interchunk changes a text as its rules say | partial | `Inter.C75_interchunk_partial`, `Inter.C75_unique_partial`, `Inter.C75_content`, `Inter.C75_memory`, `Inter.C75_position_violation`, `Inter.C75_no_content_violation`, `Inter.C75_lemma_violation`, `Inter.C75_unchecked_violation`, `Inter.C75_lu_violation` | an equivalence, for inputs in which special characters are escaped (and no head has an escaped $), rules without reject-current-rule whose positions are those of their patterns, and categories as in C72; the last two sentences without these conditions; <let>, <modify-case> and <call-macro> with positions outside the pattern are undefined behaviour, and the content of a word without braces ends the program |
| C76 | apertium-postchunk unfolds a text as its rules say | partial | `Postchunk.C76_postchunk_partial`, `Postchunk.C76_unique`, `Postchunk.C76_memory`, `Postchunk.C76_no_braces_violation`, `Postchunk.C76_two_chunks_violation`, `Postchunk.C76_macro_violation`, `Postchunk.C76_empty_chunk_violation`, `Postchunk.C76_assign_violation` | an equivalence, for inputs in which special characters are escaped and whose chunks begin with a word and do not end with a bare character (C41, C42), rules without reject-current-rule whose pattern is one category (as the DTD demands); words without braces are dropped, a macro without parameters ends the program, assignments to positions outside the chunk are undefined behaviour |
| C77 | The predefined parts of a word are its lemma, its two halves, and its tags | partial | `Parts.C77_read_partial`, `Parts.C77_assign_partial`, `Parts.C77_chunk_partial`, `Parts.C77_attr_partial`, `Parts.C77_escape_violation`, `Parts.C77_hash_violation`, `Parts.C77_brace_violation` | for words without `<` in the lemma and with `#` only before an invariable part: escaped `<` and `#` are taken for the real ones, and `#` elsewhere is in neither half of the lemma; chunk parts for chunks with at least one tag and no brace in the name; the engine (leftmost match, alternatives and repetitions in order) stands for ICU's |
| C78 | The instructions of apertium-interchunk mean what the documentation says | proved | `Inter.C78_value`, `Inter.C78_out`, `Inter.C78_let_var`, `Inter.C78_let_part`, `Inter.C78_modify_case`, `Inter.C78_append`, `Inter.C78_start`, `Inter.C78_macro`, `Inter.C78_blanks` | laws of the interpreter that C75 uses; parts are any regular expressions (C77 says which the predefined ones are); macros called with the declared number of arguments; assignments to positions outside the chunks and content of words without braces are the violations of C75 |
| C79 | The instructions of apertium-postchunk mean what the documentation says, and word-bound blanks follow the lemmas | partial | `Postchunk.C79_value`, `Postchunk.C79_lu`, `Postchunk.C79_mlu`, `Postchunk.C79_out`, `Postchunk.C79_let_var_partial`, `Postchunk.C79_append_partial`, `Postchunk.C79_let_part`, `Postchunk.C79_modify_case`, `Postchunk.C79_macro`, `Postchunk.C79_macro_outside`, `Postchunk.C79_start`, `Postchunk.C79_blanks`, `Postchunk.C79_var_to_var_violation` | laws of the interpreter that C76 uses, for expressions without lexical units nested in others; word-bound blanks are lists of pieces; a variable assigned from another variable loses the word-bound blanks (violation) |
| C80 | The tagger definition is read as it is written | partial | `Tsx.C80_read_partial`, `Tsx.C80_duplicate`, `Tsx.C80_terminates`, `Tsx.C80_numbers`, `Tsx.C80_unknown_label_violation`, `Tsx.C80_forward_label_violation`, `Tsx.C80_order_violation`, `Tsx.C80_unknown_section_violation`, `Tsx.C80_empty_label_violation`, `Tsx.C80_label_item_end_violation`, `Tsx.C80_reread_violation` | the file as the sequence of nodes that libxml2 reports; C80_read_partial leaves out the long form of label-item in a label-sequence, which is rejected, and says what a reader keeps that has read another file; labels that no definition has are silently the tag LPAR; C80_terminates and C80_numbers for any sequence of nodes |
| C81 | apertium-tagger does what its usage says | partial | `Driver.C81_run_partial`, `Driver.C81_reject_partial`, `Driver.C81_only_partial`, `Driver.C81_iterations`, `Driver.C81_negative_violation`, `Driver.C81_help_violation`, `Driver.C81_unigram_violation`, `Driver.C81_abort_violation`, `Driver.C81_flags_violation` | options as getopt_long reports them; the partial theorems assume that the two flags that the program does not initialise happen to be off; -h, -u 12, -1 iterations and -x with -r or -t do something else than an error or what the usage says |
| C82 | Training touches only the tagger, at the end, and from its inputs only | partial | `Driver.C82_only_target`, `Driver.C82_training_last`, `Driver.C82_train_inputs`, `Driver.C82_retrain_violation`, `Driver.C82_retrain_stdin_violation`, `Driver.C82_retrain_zero_violation` | the algorithms are any functions of their inputs; holds but for retraining, which throws the probabilities away, reads standard input for a dictionary and starts from memory that was not initialised; and the old tagger is lost if the program is stopped while it writes |
| C83 | An .mtx file is read as it is written | partial | `Mtx.C83_read_partial`, `Mtx.C83_beam_violation`, `Mtx.C83_set_violation`, `Mtx.C83_loop_violation`, `Mtx.C83_strlen_violation`, `Mtx.C83_toklen_violation`, `Mtx.C83_inst_violation`, `Mtx.C83_argument_violation`, `Mtx.C83_arguments_violation`, `Mtx.C83_call_violation`, `Mtx.C83_out_violation`, `Mtx.C83_slots_violation`, `Mtx.C83_slice_violation`, `Mtx.C83_number_violation`, `Mtx.C83_scope_violation`, `Mtx.C83_condition_violation` | the file as the sequence of nodes that libxml2 reports, at the end of an element with the attributes of its start; C83_read_partial: for the files that the grammar Writes describes (macros without arguments and not called in each other or in the condition, all loops of a file over lists of the same kind, no beam-width, def-set, strlen, arrlen, toklen, inst), with numbers that fit a byte, at places where C58 holds; the violations show what is wrong outside of it |
| C84 | A file of transfer rules is read as it is written, by compiler and interpreter alike | proved | `Trx.C84_read`, `Trx.C84_rules`, `Trx.C84_compiled` | the file as a tree, seen by the compiler as the nodes that libxml2 reports and by the transfer programs as elements; lttoolbox (splitting of tags, minimisation, the format of the automaton) and ICU (whether an expression compiles) are parameters; what the patterns match is C72, what the expressions of parts match is C17 and C77; strings are written as characters instead of UTF-16 units; files that are not written by the document type (sections in another order, a rule without action) are outside |
| C85 | A name that is used in the rules and not defined is reported | partial | `Trx.C85_reported_partial`, `Trx.C85_first_violation`, `Trx.C85_undefined_violation` | holds for categories in patterns, parts in rules and macros defined twice; the code does not check the names of macros, variables and lists, nor the parts in macros, and a call of a macro that is not defined runs the first macro of the file |
| C86 | A LaTeX document that is not translated comes back as it was | partial | `Latex.C86_roundtrip_partial`, `Latex.C86_same_partial`, `Latex.C86_accent_violation`, `Latex.C86_dotless_violation`, `Latex.C86_hash_violation`, `Latex.C86_environment_violation`, `Latex.C86_verbatim_violation`, `Latex.C86_option_violation` | the rules of the flex files are transcribed by hand, and flex (longest match, first rule, default rule) is modelled; characters instead of bytes; holds for every sequence of the pieces of Spec; what is left out there is not restored by the code, see the violations |
| C87 | Adapting a Word document moves words between runs, and changes nothing else | partial | `Docx.C87_total`, `Docx.C87_boundary`, `Docx.C87_ends`, `Docx.C87_legal`, `Docx.C87_unchanged`, `Docx.C87_twice`, `Docx.C87_document`, `Docx.C87_print`, `Docx.C87_content_partial`, `Docx.C87_tab_violation`, `Docx.C87_hyperlink_violation`, `Docx.C87_break_violation`, `Docx.C87_comment_violation`, `Docx.C87_cdata_violation`, `Docx.C87_dangling_violation` | the tree as libxml2 gives it; texts as characters instead of bytes, which the positions allow; the letters are any set without hyphen, middle dot and U+0000; all but C87_content_partial hold for all documents (C87_legal, C87_document and C87_twice: for runs with at most one text node); what is read is kept only if nothing visible stands inside or between the text runs of a paragraph |
| C88 | Filtering a corpus keeps one word of every ambiguity class | partial | `Tagger.C88_output`, `Tagger.C88_classes`, `Tagger.C88_idempotent`, `Tagger.C88_training`, `Tagger.C88_empty_violation`, `Tagger.C88_nul_violation`, `Tagger.C88_discard_violation` | for corpora without multiwords cut at +, well-formed as in C20, without NUL, without empty analyses and without discard rules: empty analyses, NULs and discard rules give wrong output (violations) |
| C89 | Rules written in XML mean what the document type says | proved | `Dom.T.C89_expr`, `Dom.T.C89_rule`, `Dom.T.C89_history`, `Dom.T.C89_program`, `Dom.I.C89_inter_expr`, `Dom.I.C89_inter_rule`, `Dom.I.C89_inter_history`, `Dom.I.C89_inter_program`, `Dom.P.C89_post_expr`, `Dom.P.C89_post_rule`, `Dom.P.C89_post_history`, `Dom.P.C89_post_program`, `Dom.C89_valid`, `Dom.C89_macro`, `Dom.C89_meaning`, `Dom.C89_file`, `Dom.C89_inter_file`, `Dom.C89_post_file` | against the abstract rules that C51, C75 and the other claims about rules are stated for (absExpr, absInstr and so on say which one an element denotes, for the elements of the document type); libxml2 is taken to keep a text node for every attribute value, also an empty one; atoi without overflow |
| C90 | Prefer and discard rules fit the words with their tags | partial | `Glob.C90_expression`, `Glob.C90_attribute`, `Glob.C90_match_partial`, `Glob.C90_table`, `Glob.C90_prefer_partial`, `Glob.C90_discard_partial`, `Glob.C90_meta_violation`, `Glob.C90_lemma_violation` | for tags whose names are plain characters (the code puts them into the expression unescaped, so a full stop, a plus sign or a parenthesis in a name changes what the pattern fits: C90_meta_violation) and lexical forms without angle brackets in the lemma (C90_lemma_violation); ICU's matching without case is taken as comparison after folding character by character, with a fold that keeps angle brackets; prefer and discard for the case that not every analysis is discarded |
| C91 | LaTeX comes back with its letters as commands | partial | `Tex.C91_roundtrip_partial`, `Tex.C91_same_partial`, `Tex.C91_ascii_partial`, `Tex.C91_violation` | for the documents described in Latex/Spec.lean and number signs, as for C86; the rest is not only missing but lost by the code: the command of ł runs into the letters behind it, a character beyond sixteen bits becomes another one, letters of verbatim text become commands (C91_violation) |
| C92 | New rules for a tagger are the rules of the new definition | partial | `NewRules.C92_rules_partial`, `NewRules.C92_units`, `NewRules.C92_order_violation`, `NewRules.C92_discard_violation` | for a definition with the same tags in the same order, and with exact arithmetic rounded once; with the same tags in another order the code uses the numbers of the new definition for the states of the old tagger (C92_order_violation), and the discards of the tagger are lost because TaggerData::copy does not copy them (C92_discard_violation); probability zero is 1e-10 before the division (see C21) |
| C93 | The words of a corpus and their tags, one on each line | partial | `ReadWords.C93_words_partial`, `ReadWords.C93_unknown_violation` | for corpora of well-formed lexical units (as C20) and definitions without discard rules (with --tsxfile there never are any, as they are lost on the way); an unknown word is reported even if all is known that the tagger needs (C93_unknown_violation) |
| C94 | The perceptron and the HMM tagger agree on coarse tags | partial | `Coarse.C94_agree_partial`, `Coarse.C94_exact`, `Coarse.C94_cache`, `Coarse.C94_ambgset_partial`, `Coarse.C94_unknown_violation`, `Coarse.C94_escape_violation` | for a lemma without '<', an analysis without a lemma queue, and tags that the patterns name; C94_exact says what is found with other tags: they count as if they were not there, while the HMM tagger finds no coarse tag (C94_unknown_violation); an escaped '<' in the lemma begins a tag for the HMM tagger only (C94_escape_violation). The ambiguity sets are proved for analyses of one morpheme; the cache for all histories |
| C95 | How similar two sentences are for the aligner | partial | `TmxSim.C95_score_partial`, `TmxSim.C95_exact`, `TmxSim.C95_number`, `TmxSim.C95_order`, `TmxSim.C95_symmetric`, `TmxSim.C95_bounds`, `TmxSim.C95_self`, `TmxSim.C95_matrix`, `TmxSim.C95_tool_partial`, `TmxSim.C95_numbers_violation` | the similarity is proved for sentences with a word that comes after all numbers in the order of bytes, and C95_exact says what it is otherwise: numbers that come after all words of the other sentence are not compared (C95_numbers_violation); order, symmetry, bounds and the comparison with itself hold for all sentences. The best alignment as in C35: the trail begins at the last point where one of the texts has not begun; exact arithmetic |
| C96 | apertium-tmxbuild from two texts to the pairs of aligned sentences | partial | `TmxBuild.C96_lines_partial`, `TmxBuild.C96_program_partial`, `TmxBuild.C96_words`, `TmxBuild.C96_white_partial`, `TmxBuild.C96_newline_violation`, `TmxBuild.C96_blank_violation` | C96_words and C96_white_partial are for texts with any white space: the aligner gets all their words, in order, and the pairs contain them; that each sentence is one for the aligner is proved for texts without white space other than spaces and tabs (a newline within a sentence makes two sentences of it, one between two sentences an empty one: C96_newline_violation; a line of blanks only vanishes: C96_blank_violation), below the limits of size of the aligner, and without the cautious mode; one text may lose sentences before the point where the trail begins (as in C35); what is then written from the pairs is C63 |
| C97 | Feature vectors are vectors | partial | `FeatVec.C97_order`, `FeatVec.C97_run`, `FeatVec.C97_score`, `FeatVec.C97_dot`, `FeatVec.C97_linear`, `FeatVec.C97_symmetric`, `FeatVec.C97_unary`, `FeatVec.C97_make`, `FeatVec.C97_explain_partial`, `FeatVec.C97_repeated_violation` | everything for all vectors and histories, in exact arithmetic, but for the vector that is printed: it is the one of the score only if no feature of the word occurs twice (C97_explain_partial); a feature that occurs twice counts twice but is printed with the value 1 (C97_repeated_violation; C97_make says what the printed vector is) |
| C98 | The file of apertium-tmxbuild is well-formed XML | partial | `TmxFile.C98_file`, `TmxFile.C98_document_partial`, `TmxFile.C98_placeholder_violation`, `TmxFile.C98_language_violation` | C98_file is for all files of segments that are well-formed; C98_document_partial is for the columns whose segments C63_segment_partial describes (placeholders not outside white space at an end, characters that XML has). Two placeholders with a space at the end of a column make a file that is no XML (C98_placeholder_violation), and so do codes of languages with characters that are special in XML (C98_language_violation). The first segment of every unit is empty (C63_unit_violation) |
| C99 | apertium-transfer does what its usage message says | partial | `TransferCli.C99_options`, `TransferCli.C99_usage`, `TransferCli.C99_order`, `TransferCli.C99_help`, `TransferCli.C99_count_partial`, `TransferCli.C99_all`, `TransferCli.C99_extra_violation`, `TransferCli.C99_output_violation` | everything but: with -b or -n five files are taken for those of a translation with a dictionary (C99_extra_violation), and the output file is opened, hence emptied, before the other files are known to be there (C99_output_violation). The parsing of the arguments into options and files is that of getopt_long; abbreviated long options are not modelled |
| C100 | The user's preferences reach every request and leave no trace in the translation | partial | `Setvar.C100_every_request`, `Setvar.C100_unset`, `Setvar.C100_no_trace_partial`, `Setvar.C100_mode_partial`, `Setvar.C100_preferences_partial`, `Setvar.C100_no_file_partial`, `Setvar.C100_run_partial`, `Setvar.C100_greater_violation`, `Setvar.C100_own_command_violation`, `Setvar.C100_none_left_violation`, `Setvar.C100_equals_violation` | everything but: a preference with > in it is not taken out of the translation (C100_greater_violation), the user's own commands are taken out with it (C100_own_command_violation), a value that ends in = loses it (C100_equals_violation), and if no option is left the preference is given without a value (C100_none_left_violation). Preferences with newlines, or whose first begins with -, are left out of C100_preferences_partial (echo and $(...) of the shell change them). What xmllint finds in the file of preferences is given |
| C101 | The apertium command does what its command line asks for | partial | `ApertiumCli.C101_options`, `ApertiumCli.C101_translate_partial`, `ApertiumCli.C101_count`, `ApertiumCli.C101_list`, `ApertiumCli.C101_unknown`, `ApertiumCli.C101_version`, `ApertiumCli.C101_only`, `ApertiumCli.C101_direction_violation`, `ApertiumCli.C101_unknown_format_violation`, `ApertiumCli.C101_late_option_violation` | everything but: without -o no direction at all is given to lt-tmxcomp, although the usage message says that the direction of the translation is (C101_direction_violation); -u has no effect with a format that is not known (C101_unknown_format_violation); an option after files that are after options is taken for a file (C101_late_option_violation). What the functions translate_... do is not modelled |

## Code that is modelled

Lines cited by definitions and theorems (merged), and the Lean files that cite them.

| file | lines | Lean files |
|---|---|---|
| a.cc | 25–30, 34–48 | Serial/Streams.lean, Unigram/Train.lean |
| align.cc | 29–54 | Help/Linebreak.lean |
| analysis.cc | 32–68 | Serial/Streams.lean, Unigram/Stream.lean |
| apertium-header.sh | 85–156, 489–744 | ApertiumCli/Model.lean, Setvar/Model.lean, Setvar/Prefs.lean |
| apertium_cleanstream.cc | 45, 62–103 | Clean/Model.lean |
| apertium_extract_caps.cc | 31–71, 92–127 | Caps/Extract.lean |
| apertium_filter_ambiguity.cc | 39–79 | Tagger/Filter.lean |
| apertium_perceptron_trace.cc | 80–81 | FeatVec/Model.lean |
| apertium_posttransfer.cc | 43–60 | Post/Model.lean |
| apertium_re.cc | 47–53, 72–136 | Glob/Model.lean, Parts/Model.lean, Regex/Spec.lean, Transfer/Word.lean |
| apertium_tagger_apply_new_rules.cc | 140–167 | NewRules/Model.lean |
| apertium_tagger_readwords.cc | 45–73 | ReadWords/Model.lean |
| apertium_transfer.cc | 69–213 | TransferCli/Model.lean |
| caps_compiler.cc | 35–39, 60–71, 84–289 | Caps/Restore.lean, Crx/Model.lean |
| caps_restorer.cc | 18–24, 28–34, 38–216 | Caps/Restore.lean, Crx/Model.lean |
| caps_restorer.h | 44–53 | Caps/Restore.lean |
| collection.cc | 25–113 | Serial/File.lean, Serial/Streams.lean, Tagger/Classes.lean |
| collection.h | 31–35 | Tagger/Classes.lean |
| constant_manager.cc | 71–94 | Serial/File.lean |
| deformat.xsl | 46–78, 189–192, 249–277, 448–525, 544–586, 600–616, 626–657, 681–700 | Format/Deformat.lean, Format/Utf8.lean |
| deserialiser.h | 64–83, 91–97 | Serial/Streams.lean |
| endian_double_util.cc | 26–44, 63–77 | Serial/File.lean |
| feature_vec.cc | 11–23, 27–58, 80–125, 133–152, 163–213 | FeatVec/Model.lean, Percep/Average.lean, Serial/Streams.lean |
| feature_vec_averager.cc | 5–52 | Percep/Average.lean |
| file_morpho_stream.cc | 57–390 | Glob/Prefer.lean, Tagger/Stream.lean, Tagger/StreamExamples.lean |
| file_tagger.cc | 41–50, 83–87 | Driver/Model.lean |
| gen_modes.cc | 34–46, 53–250, 262–340 | Mode/Gen.lean |
| hmm.cc | 70–73, 106, 174–784 | Driver/Exec.lean, Driver/Model.lean, NewRules/Model.lean, Serial/Props.lean, Tagger/BaumWelch.lean, Tagger/BaumWelchProps.lean, Tagger/Filter.lean, Tagger/Hmm.lean, Tagger/Train.lean |
| hmm.h | 47 | Tagger/Train.lean, Tagger/TrainProps.lean |
| i.cc | 23 | Serial/Streams.lean |
| interchunk.cc | 25–676 | Dom/Chunk.lean, Dom/Document.lean, Dom/Inter.lean, Dom/Program.lean, Inter/Model.lean, Token/Model.lean, Token/Props.lean, Transfer/Loop.lean, Trx/Model.lean |
| interchunk_word.cc | 63–124, 132–136 | Chunk/Word.lean, Transfer/Word.lean |
| linebreak.cc | 21–93 | Help/Linebreak.lean |
| lswpost.cc | 65–68, 103–319, 334–405 | Driver/Model.lean, Serial/Props.lean, Tagger/Lsw.lean |
| morpheme.cc | 25–30, 43–109 | Serial/Streams.lean, Unigram/Stream.lean |
| mtx_reader.cc | 39–48, 57–162, 186–653, 665–762, 795–845, 933–1134, 1146–1179 | Mtx/Model.lean, Mtx/Proc.lean, Percep/Reader.lean |
| mtx_reader.h | 42–44, 124–147 | Mtx/Model.lean |
| perceptron_spec.cc | 60–97, 107–185, 192–195, 205–247, 264–290, 305–733, 778–844 | Coarse/Model.lean, Percep/Machine.lean, Percep/Reader.lean, Serial/Streams.lean |
| perceptron_spec.h | 38–149, 164–355, 378–392, 446–451 | Percep/Machine.lean, Serial/Streams.lean |
| perceptron_tagger.cc | 32–99, 108–239, 243–291, 318–321 | Coarse/Model.lean, FeatVec/Model.lean, Percep/Beam.lean, Percep/Train.lean, Serial/Streams.lean |
| perceptron_tagger.h | 45–51 | Percep/Beam.lean |
| postchunk.cc | 26–222, 232–248, 262–1182 | Chunk/Model.lean, Dom/Chunk.lean, Dom/Document.lean, Dom/Post.lean, Dom/Program.lean, Postchunk/Model.lean, Postchunk/Violations.lean, Token/Model.lean, Transfer/Loop.lean, Trx/Model.lean |
| pretransfer.cc | 11–222 | Pre/Model.lean |
| reformat.xsl | 41–61, 71–131 | Format/Reformat.lean |
| sentence_stream.cc | 10–32, 36–60, 72–82, 97–174 | Unigram/Sentence.lean |
| serialiser.h | 70–82, 89–93 | Serial/Streams.lean |
| shell_utils.cc | 24–40 | Driver/Model.lean |
| stream.cc | 32–91, 95–126 | Unigram/Sentence.lean, Unigram/Stream.lean |
| tagger.cc | 51–296, 302–339, 374–390, 436–447, 453–517, 523–549, 556–765 | Driver/Exec.lean, Driver/Model.lean, Driver/Spec.lean |
| tagger_data.cc | 22–34 | NewRules/Model.lean, Serial/File.lean |
| tagger_data.h | 33–51 | Serial/File.lean, Tagger/Classes.lean, Tsx/Model.lean |
| tagger_data_hmm.cc | 65–74, 99–142, 168–400 | Driver/Exec.lean, NewRules/Model.lean, Serial/File.lean |
| tagger_data_lsw.cc | 113–321 | Serial/File.lean |
| tagger_data_percep_coarse_tags.cc | 27–82 | Coarse/Model.lean, Serial/Streams.lean |
| tagger_flags.cc | 22–24 | Driver/Model.lean |
| tagger_flags.h | 55–61 | Driver/Model.lean |
| tagger_utils.cc | 98–164, 195–212 | Driver/Model.lean, Tagger/Classes.lean, Tagger/ClassesProps.lean |
| tagger_word.cc | 22–26, 69–119, 126–130, 135–246, 278–281, 324–374 | Glob/Model.lean, Glob/Prefer.lean, ReadWords/Model.lean, Tagger/DiscardProps.lean, Tagger/Filter.lean, Tagger/Stream.lean |
| tmx_aligner_tool.cc | 141–420, 424–444 | Tmx/Align.lean, Tmx/Output.lean, TmxBuild/Model.lean, TmxSim/Model.lean |
| tmx_alignment.cc | 38–353, 397–411 | Tmx/Align.lean, Tmx/Output.lean |
| tmx_book_to_matrix.cc | 49–116, 143–189, 311–350, 371–379 | TmxSim/Model.lean |
| tmx_book_to_matrix.h | 21–23 | TmxSim/Model.lean |
| tmx_builder.cc | 62–71, 156–318, 359–374, 414–431, 459–519, 730–769 | Tmx/Builder.lean, TmxBuild/Model.lean, TmxFile/Model.lean, TmxSim/Model.lean |
| tmx_dictionary.cc | 30–75, 100–112 | TmxBuild/Model.lean |
| tmx_quasi_diagonal.h | 46–96, 116–131, 139–147 | Tmx/Align.lean |
| tmx_serialize_impl.h | 19–29 | TmxBuild/Model.lean |
| tmx_trail_postprocessors.cc | 60–108, 127–140, 149–168, 183–259, 265–299, 304–338, 352–380, 384–419, 445–479 | Tmx/Output.lean |
| tmx_translate.cc | 167–220, 326–360 | TmxSim/Model.lean |
| tmx_words.h | 24, 28 | TmxSim/Model.lean |
| transfer.cc | 73–1472 | Bil/Model.lean, Dom/Base.lean, Dom/Document.lean, Dom/Program.lean, Dom/Syntax.lean, Dom/Transfer.lean, Pattern/Model.lean, Token/Model.lean, Transfer/Base.lean, Transfer/Loop.lean, Transfer/Model.lean, Transfer/Word.lean, TransferCli/Model.lean, Trx/Model.lean, Whole/Model.lean, Whole/Violations.lean |
| transfer.h | 32–37, 41–48 | TransferCli/Model.lean, Whole/Model.lean |
| transfer_base.cc | 26–614, 622–638 | Dom/Base.lean, Dom/Chunk.lean, Dom/Document.lean, Dom/Inter.lean, Dom/Post.lean, Dom/Syntax.lean, Dom/Transfer.lean, Inter/Model.lean, Postchunk/Model.lean, Transfer/Base.lean, Transfer/Model.lean, Transfer/Syntax.lean, TransferCli/Model.lean, Trx/Model.lean |
| transfer_base.h | 31–72 | Inter/Model.lean, Postchunk/Model.lean, TransferCli/Model.lean, Trx/Model.lean, Whole/Model.lean |
| transfer_data.cc | 44–55, 114–239 | Chunk/Word.lean, Dom/Document.lean, Inter/Violations.lean, Parts/Model.lean, Pattern/Model.lean, Trx/Model.lean |
| transfer_data.h | 30–41 | Trx/Model.lean |
| transfer_instr.h | 25–79 | Dom/Base.lean |
| transfer_mult.cc | 141–462, 469–506 | Mult/Model.lean |
| transfer_regex.cc | 3–22, 27–121 | Regex/Model.lean |
| transfer_word.cc | 76–117, 125–172 | Transfer/Word.lean |
| trx_reader.cc | 27–28, 36–224, 243–436 | Dom/Document.lean, Pattern/Model.lean, Trx/Model.lean |
| trx_reader.h | 33–36 | Trx/Model.lean |
| tsx_reader.cc | 58–70, 83–550 | Glob/Model.lean, Tsx/Model.lean, Tsx/Violations.lean |
| ttag.h | 27–37 | Tagger/Train.lean |
| unigram_tagger.cc | 31–33, 50–151, 156–174, 185–233, 242–294, 299–413 | Serial/Streams.lean, Unigram/Stream.lean, Unigram/Train.lean |
| unigram_tagger.h | 37–43 | Serial/Streams.lean |
| utils.h | 4–12 | Mtx/Model.lean |
| wblank-attach.cc | 25–33, 50–57, 61–177 | Attach/Model.lean |
| wblank-detach.cc | 37–111 | Detach/Model.lean |
| wblank-mode.cc | 27–111 | Mode/Model.lean |
| xml_reader.cc | 24–76 | Mtx/Model.lean, Trx/Model.lean, Tsx/Model.lean |

## Plan per property (first version, before the proofs)

| property | model | proof |
|---|---|---|
| C01, C10 | `posttransfer` as a scan with the `last_space` flag | induction; spec = "remove a space that follows a space" |
| C02–C05 | `pretransfer` as a recursive-descent over the input with outcome type | grammar of well-formed streams + refinement; divergence witness |
| C06 | `cleanstream` state machine | refinement over the stream grammar |
| C07, C10 | `detach` state machine | refinement over the grammar; NUL isolation by state reset |
| C08, C09 | `attach` state machine with UB outcome | refinement to a stack of sets; negation witness for C09 |
| C11, C12 | evaluator of rule conditions and instructions | induction over syntax trees vs Prop semantics |
| C13 | word as string + regexp find/replace abstracted as a match function | algebraic laws |
| C14 | `combineWblanks` | algebra of piece lists |
| C15, C16 | interpreter with blank queue; transfer main loop over an abstract automaton | invariants |
| C17 | trie builder and regexp language | language equality or counterexample |
| C18 | chunk split | induction over the string |
| C19, C20 | Viterbi over an abstract ordered semiring | induction over words |
| C21, C22 | matrix update, triple test | direct, negation witness for the `else if` |
| C23 | loop with erase and restart | negation witness + partial |
| C24, C25 | collection, similar-class search | invariant over operation histories; negation witness |
| C26, C27 | unigram model | invariant over training history (rational ratios) |
| C28 | printer and parser | round trip |
| C29 | byte serialisers | round trip for every constructor |
| C30 | token streams | negation witness + partial |
| C31, C59-C61 | extract caps, restore caps; the rule automaton is a parameter | refinement over the grammar, invariants on accumulated weights |
| C32 | averaged perceptron | invariant over histories |
| C33 | mode rewriting | list of stages |
| C34 | wrap loop, table of options | induction, termination measure |
| C35, C62 | alignment DP in a band, trail, filters, output | optimality by induction over cells; sublist invariants |
| C63, C64 | sentence splitting, XML escaping, units | refinement against grammars, violations |
| C65-C68 | deformat.xsl and reformat.xsl as interpreters of a format; regular expressions by derivatives; the twelve formats as terms | pieces of the stream as invariant; per-format side conditions by a verified checker |
| C69, C70 | gen_modes.cc: reading the element tree, debug modes, files and their text | lookups in the map of modes by induction over the entries; a small shell reader as specification of the text |
| C71 | transfer_mult.cc: tokens, splitting of translations, combinations, the loop | simulation by the loop model of C16, induction over the words |
| C72 | trx_reader.cc: items, categories, patterns, rule numbers; transfer_data.cc; applyWord of the programs | labelled tries and denotations of states, by induction over items and rules; simulation of the automaton by paths |
| C73 | caps_compiler.cc without its XML reader; the steps of caps_restorer.cc in the compiled transducer | the language of each state of the transducer by induction over the rule; the set of threads by what they have read; the votes by permutation of the matches |
| C74 | Transfer::applyRule; the composition of token reader, pattern compiler, main loop and interpreter | the interpreter commutes with further words; the run of the loop and the derivation of the translation determine each other; more depth of macro calls changes nothing |
| C75 | interchunk.cc: the interpreter (evalCachedString, processLet, processModifyCase, processCallMacro, ...), applyRule, applyWord, readToken, interchunk | as C74; the interpreter commutes with further words, never changes the array of words nor what is inside them (an invariant closed under all instructions); a generic link from the main loop to the specification (`Inter/Engine.lean`) |
| C76 | postchunk.cc: the interpreter (evalCachedString, processLet, processCallMacro, ...), applyRule, applyWord, readToken, splitWordsAndBlanks, unchunk, postchunk | the main loop for one-word patterns is a fold over the chunks (`Postchunk/OneWord.lean`); what the rule gets is computed from the chunk with C42; the interpreter is monotone in the depth of macro calls; an equivalence with the specification |
| C77 | the regular expressions of transfer_data.cc:46-54 as syntax trees (printed back to the text of the source), a backtracking matcher for them; def-attr via C17 | the first way of matching is computed for each expression on a word given by lemma, queue and tags; leftmost by showing that no match begins earlier |
| C78 | the interpreter of interchunk.cc (as C75), processRule, processCallMacro, applyRule | a relational meaning of expressions and of `<out>` given independently of the interpreter's state; induction over expressions; blanks by a relation closed under all instructions and macro calls |
| C79 | the interpreter of postchunk.cc (as C76), processAppend, processRule, applyRule | as C78, with the pieces of word-bound blanks that an expression brings as a further part of its meaning; induction over expressions with an invariant on what is collected for the lexical unit and for the variable |
| C80 | all of tsx_reader.cc over the sequence of nodes of xmlTextReader; PatternList as the list of calls | a grammar of the ways to write a definition, given independently; each loop of the reader is run along that grammar (generic lemmas for loops that pass text and run over a list of elements); invariants for arbitrary node sequences |
| C81 | tagger.cc: the constructor, get_file_arguments, parse_unsigned_long_int, the g_/r_/s_/t_ functions; tagger_flags.cc, shell_utils.cc; getopt_long reports the options | the lines of the usage as a datatype with spellings and the list of actions of each; the loop over options by induction with the set of slots already taken; strtoul on numerals |
| C82 | the actions of tagger.cc (as C81) on a file system, the algorithms as parameters | induction over the actions, each of which says which file it can write; the two worlds of a run compared |
| C83 | all of mtx_reader.cc over the sequence of nodes of xmlTextReader, with the code of C58 as what it writes | files as trees with names and a grammar of the ways to write them, both independent of numbers and code; induction over the grammar: the reader runs along it, and the numbered expression it writes means what the named one means, with the tables of strings, sets, slots and globals as invariant; then C58 |
| C84 | all of trx_reader.cc over the nodes of xmlTextReader; TransferData::write, TransferBase::read, the collection of rules and macros from the tree | a file as an abstract value and a grammar of the trees that write it; the loops of the reader run along the tree (mutual induction over trees for actions and macros), folds over the definitions; maps; the codecs of C29 |
| C85 | as C84 | from the condition of acceptance of C84; the cache of states of the patterns as invariant |
| C86 | all rules of apertium-prelatex.l and apertium-postlatex-raw.l and the table of latex_accentsmap.cc, over a model of a flex scanner | a document as a sequence of pieces, each with what may follow it; for each piece the rule that wins is determined (rules that cannot match a known beginning are removed, the others are bounded by their patterns), then induction over the document through both scanners |
| C87 | findBoundary, adjust (both loops, with out-of-range subscripts as failure), the reading and rewriting of runs, process over the tree, printNl2spc | the boundary as the first acceptable place; an invariant of the two-index loop in terms of sums of prefixes: the end of every finished run is the boundary found from its old end; then induction over the tree |
| C88 | filter_ambiguity_classes and outputOriginal over the word reader of C20 | the loop keeps the first word of each class (induction over the corpus with the set seen); its output is shown to be a well-formed corpus itself, which the reader's theorem then reads |
| C89 | the three interpreters again, on libxml2 trees and with evalStringCache; the specification says which abstract rule an element denotes | simulation: the state is the same and every cache entry is what its element says in the role it has (value or left side of a let), which every step keeps; then the main loop with the one interpreter and with the other; every action valid for one of the three DTDs denotes a rule (content models and attribute lists by induction on the tree), and every valid file has rules and macros as the program looks them up |
| C90 | TaggerWord::match (the rewriting of the pattern and the cache), add_tag with prefer rules, discardOnAmbiguity, over the regular expressions of C20 | the rewriting is shown to give the text of an abstract expression; what that expression matches is characterised by tags, using that brackets align; add_tag by induction over the analyses, with the first of the tag or the last preferred one kept |
| C91 | apertium-postlatex.l as a second flex scanner, with the table of accents, behind the prelatex of C86 | the piecewise steps of C86 again for the other rules, and steps for number signs; then induction over the document; the three corollaries from the specification |
| C92 | apertium_tagger_apply_new_rules.cc on the model of the files of the taggers (C29), of the definition (C80) and of apply_rules (C21) | composition of C29, C80 and C21; the numbers of tags are translated to names by injectivity; the two violations by evaluation of the whole program on a small tagger |
| C93 | apertium_tagger_readwords.cc on the model of the stream of C20 and the collections of C24 | induction over the words, with the invariant that the collection only grows behind the classes of the parameters |
| C94 | tagger_data_percep_coarse_tags.cc (`coarsen`), the cache and EXAMBGSET of perceptron_spec.cc, against the recogniser run of C20 (`classOf`) | induction over the text of the analysis with the invariant that a dead recogniser stays dead; the cache by the invariant that each entry is what would be found |
| C95 | the similarities, the lengths and the thickness in tmx_book_to_matrix.cc, tmx_translate.cc and tmx_aligner_tool.cc, and the alignment of C35 on them | induction over the merge of the two ordered lists, with bags of words as specification; the hypotheses of C35 follow from the bounds of the similarities |
| C96 | outputTU of tmx_builder.cc as a whole: the splitting of C64, the lines, their reading in tmx_dictionary.cc, the aligner with the similarities of C95, its output, and the reading of C62/C63 | refinement: each pass is shown to be the inverse of the one before on clean sentences, by induction over the lines; then composition with C35, C62, C63, C64 and C95 |
| C97 | the operators of feature_vec.cc on ordered maps, with the comparison of keys, and what is printed as explanation | induction over the maps: the comparison is the lexicographic order; each operation keeps the map ordered and changes the values as it should; the walk through two maps is the sum of products |
| C98 | generateTMX of tmx_builder.cc around the units of C63, and a grammar of XML documents as specification | derivations in the grammar, by induction over items, units and attributes; for the violations an automaton that every document passes (no `<` within a tag), by induction over derivations |
| C99 | main of apertium_transfer.cc after getopt_long: the loop over the options, and the plan of actions for the files, each of which may fail | induction over the options, with the settings so far generalised; cases over the number of files |
| C100 | the shell functions apply_invert_setvars, invert_setvar, setvar_wrap, setvar_unwrap and run_mode_wblank as functions of texts, with awk's records and gsub and bash's read, echo and $() | induction over the text line by line, and over the preferences with those already written generalised; split and join are inverse |
| C101 | the main part of apertium-header.sh: bash's getopts over the raw arguments, and what is decided from the options and files; the translation functions are names only | induction over the words of options, each a cluster of letters; the settings are those of a separate reading of the list of options, by induction from its end |
