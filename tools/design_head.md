# Formal model of apertium/apertium in Lean 4

This file is written by `tools/design.py` from `tools/design_head.md`, `properties.jsonl`, `MANIFEST.json` and the citations in the Lean files.
The first version (before the proofs) is in the git history; its plan table is kept at the end.

## Method

The code is C++; it is read as text and modelled function by function as total, computable Lean functions over `List Char`, `Nat`, `Int`, `ℚ`, `Option`
and plain structures.

* `Verif/<Component>/Model.lean` (or a name that says more, e.g. `Hmm.lean`) – the model; each definition cites file and lines in /repo.
* `Verif/<Component>/Spec.lean` (or the section *Specification* of a `Props` file) – the small independent specification used in the statements.
* `Verif/<Component>/Proofs.lean` – helper lemmas.
* `Verif/<Component>/Props.lean` – property theorems (named after the property, e.g. `C01_…`), each with an `example` showing that its hypotheses are met by a
  concrete non-trivial case.

Conventions

* A text is a `List Char`. End of file is the end of the list (the code uses `U_EOF` = 0xFFFF; inputs containing the noncharacter U+FFFF are outside the model).
* A C++ loop that has no end-of-file check is modelled with an explicit outcome `diverge`; `exit()`, exceptions and failed assertions are an explicit outcome;
  undefined behaviour is an explicit outcome `ub` (or `none`).  A theorem that says `= .ok …` says that none of these happens.
* If the code violates a property, the negation is proved with a concrete witness (`…_violation`) and the strongest true part is proved; where that part is less
  than the property, the claim has the status *partial* and the note says what is missing.
* Loops over a text that need a bound for Lean's termination checker carry fuel; the theorems hold for every fuel that is at least the length of the text, or the
  program is started with enough of it by definition.

## Trusted base

* The kernel of Lean 4.33.0.  No axioms of our own; every theorem of the manifest depends on a subset of `propext`, `Classical.choice`, `Quot.sound`
  (checked with `#print axioms` for each of them; two depend on none).
* Mathlib is used only for `ℚ`, ordered fields, finite sums and the tactics `ring`, `linarith`, `field_simp` in the files on training and averages
  (Tagger/BaumWelch*, Tagger/Train*, Tagger/Lsw*, Percep/*, Unigram/Train*) and on sentence alignment (Tmx/*); everything else uses core Lean.
* The reading of the C++ code (each definition cites what it models, and says where it simplifies).
* The behaviour of the libraries that the code calls.  None of their sources is in the sandbox.  Assumed are:
  - `InputFile` (lttoolbox): `get()` returns the next code point or `U_EOF`; `peek()` the same without consuming; `unget` puts one back; `eof()` is true only after a
    `get` or `peek` has met the end; `readBlock(a, b)` copies up to the closing character, with escapes; `readBlank`, `finishWBlank` the same for blanks.
  - `Compression::multibyte_write/read`, `string_write/read` as written down in `Serial/File.lean`; `Serialiser`/`Deserialiser` of numbers, strings and doubles, and the
    file format of `PatternList`: any format that can be read back.
  - `std::map`, `std::set`, `std::vector`, `std::sort`, `std::stable_sort`, `std::partial_sort_copy`: what the C++ standard promises, no more.
  - ICU case mapping (`u_tolower`, `u_toupper`, `u_isupper`) and regular expressions: parameters with the laws stated at the theorem, where laws are needed.
  - flex: at each position the longest match of all active rules, of equal ones the first; `^` at the beginning of a line only; unmatched bytes are copied; case-insensitive ASCII letters
    (`%option case-insensitive`).  The expressions of the `*-format.xml` files are translated by `tools/gen_formats.py` into terms with a semantics in `Format/Flex.lean`; the translation is trusted.
    `utf8::is_valid` is written down in `Format/Utf8.lean`; `to_ustring` and its inverse are the identity on valid UTF-8 and arbitrary otherwise; `tmpnam` gives fresh names.
  - libxml2: not modelled; rules, modes, specifications are given as trees or lists.
* Assertions are on (the autotools build does not define `NDEBUG`).
* Numbers.  `int`, `size_t` are unbounded unless a definition says otherwise.  Tagging (Viterbi) is proved for any type of weights with a total order and a
  monotone product, which covers rounded IEEE doubles without NaN; training (Baum-Welch, Kupiec, LSW, unigram scores, perceptron) is proved in exact rational arithmetic, and
  rounding is outside the model.  Serialisation treats doubles as their 64 bits.

## What is not modelled

* File opening, command lines (`apertium_*.cc` mains; that of `tagger.cc` is, C81), locale, memory allocation, stdio buffering (flush is modelled only as a position in the output),
  messages on stderr.
* The XML reader of `caps_compiler.cc` and the file format of its output (rules are given as trees).
* XML reading: libxml2 itself (the rules are taken as the tree it makes, with a text node for every attribute value; C89; `tsx_reader.cc`, `mtx_reader.cc`, `trx_reader.cc` and `xml_reader.cc` are modelled on the nodes that libxml2 reports: C80, C83, C84).
* The operations of lttoolbox on transducers, which are modelled as described in Pattern/Model.lean and Crx/Model.lean, and its minimisation, of which only what `Minimal` says is assumed (Pattern/Exist.lean and Crx/Exist.lean show that it can be done).
  The transfer loop is proved for any automaton.
* `transferpp.cc`, `apertium_perceptron_trace.cc`, the TMX dictionary tools (in `tmx_dictionary.cc` all but the reading of sentences, and in `tmx_translate.cc` and `tmx_book_to_matrix.cc` what needs a dictionary, which apertium-tmxbuild never has), `TMXBuilder::editDistance` and what is only called from comments, the matxin mode of
  `deformat.xsl` and the shell and Python scripts, except where the table of citations below names lines of them.
* Concurrency: none of the programs has any.  Crash points: the programs keep no state on disk other than the files written at the end; a truncated file is an outcome of
  the readers (`none`).

## Where the code does not do what a user would expect

Each of these is a theorem with the suffix `_violation` (or a clause of a `_partial` theorem) unless it says *reading only*.

* `apertium-pretransfer` does not terminate on some unfinished inputs (C05).  `apertium-wblank-attach` does not reset its stack of word-bound blanks at NUL (C09) and mishandles escapes in them (C08).
* `apertium-multiple-translations`: a default translation that is the second of three or more is not put first; a `[|]` in a blank makes a single variant look like several; an unclosed `[` loops for ever; a
  translation ending in a backslash is read past its end (C71); a word with an empty translation that no rule matches is dropped (a clause of C71).
* `<or>` … in the perceptron machine: true operands of `or` and false operands of `and` after the first, `for-each` around `out`, empty loops, `join` with a leading empty
  string, macros in the global condition, operand order left to the compiler (C58).
* HMM: asking for the class most similar to an unknown set of tags overwrites the open class, so that later answers depend on earlier queries (C25); the words pending at the end of the text are lost when the last word is ambiguous (C20).
* Training from a `.tsx` loses the `<discard-on-ambiguity>` entries, because `TaggerData::copy` does not copy them (C29); reading a tagger into a used object accumulates rules; the
  discards are delimited by the end of the file, so nothing can follow.
* LSW: `else if` skips the test of enforce rules for repeated tags (C22); discard-on-ambiguity loses analyses (C23).
* Averaged perceptron: see C32, C57.
* Capitals: `apertium-extract-caps` loses the text of a unit without analysis and takes a `[[/]]` directly before a unit for a word-bound blank of it (C31);
  `apertium-restore-caps` drops word-bound blanks that are not before a unit, those of units with an empty surface form, and the pieces after `c:`; a trailing blank or the end of the input
  counts the matches at the last word a second time (C59, C60).
* Help texts with a word of 80 characters or more are never printed: the wrapping loops for ever (C34).
* apertium-tmxbuild: two sentences are never aligned with one (the score is computed but not stored), so that exchanging the books changes the alignment (C35); sentences before the first aligned one and, with
  `-cautious`, the end of both books are lost; an empty book is undefined behaviour (C62); no unit with two segments is ever written, because the condition is the wrong way round (C63); a placeholder at
  the start of a segment is cut in two (C63); the text after the last full stop is lost and a blank without end aborts (C64).
* Format filters: with `-n` a full stop at the end of a paragraph is lost, with `-o` the mark of a header stays in the document, one byte that is not UTF-8 makes the text after it disappear, NUL bytes are lost, and the
  entities that the format files mark as preferred are never put back, because the reformatter looks up single bytes (C65).
* apertium-gen-modes: the untrimmed debug modes have the trace option twice, an empty attribute is a null pointer, a mode with the name of another replaces it silently (C69); a path with a single quote makes the file unreadable for a
  shell, and `-l` without `-f` is taken for an installation, so that modes without `install="yes"` are not written (C70).
* Patterns of rules: an escaped character or a capital letter in the lemma of a `cat-item` can never match; `*.*` means `*`; a `cat-item` with a lemma and no tags matches every word without tags (its `name` is used);
  an escaped `$` in a word is taken for the end of the word; a rule that rejects the words it matched hides later rules for the same words (C72).
* The other `_violation` theorems are listed in the table below.
* `.mtx` files: one with a `<beam-width>` is never accepted, nor a `def-set` with members, `strlen`, `arrlen`, a `for-each` among instructions, a macro that is a slice of a list, `<macro/>`; `toklen` and `<inst>` never
  end; the arguments of a macro are put at the place that is the number of the argument (`1 < a` with 5 becomes `5 < 1`); the types of variables are kept between templates, so that two good templates can be rejected together;
  a condition for all features that calls a macro has no value for it (C83).
* *Reading only*: `FILTERIN` of the perceptron machine erases with one iterator; the operand of `<inst>` is overwritten; `prg_id` is a `char`.
* *Reading only*: supervised HMM training dereferences the untagged word before testing it for NULL; a copied `Collection` keeps pointers into the map of the original.
* `apertium-compile-caps` and `apertium-restore-caps`: in the tags of a rule `*.?` means `*` and `+.?` means `+`, in a lemma `**` means `*`; an escaped `/` in a word is taken for the end of the form; a lemma with a
  character outside the basic multilingual plane never matches (the compiler uses UTF-16 units, the restorer code points); a unit without analysis is matched by no rule in which the lemma is not given; a unit with
  the tag `<$>` and escaped slashes makes a rule match two words in one, and the program writes before the start of its array (C73).
* `apertium-transfer`: a rule whose positions go beyond its pattern gets words that were read ahead for longer patterns of other rules, so that adding a rule that is not used changes what another one writes (C74).  With null flush,
  the word-bound blanks of variables are not reset with the variables (C46).
* `apertium-interchunk`: `<let>` and `<modify-case>` with a position outside the pattern, and `<call-macro>` with too few or too many arguments, read or write outside an array, where `<clip>` warns; `<clip part="content">` of a
  word without braces ends the program with an exception; the lemma of a chunk without tags contains what is inside it; `<lu>` and `<lu-count>` end the program at the first chunk that matches (C75).
* `apertium-postchunk`: a word without braces is silently dropped; a pattern of two chunks loses the words of the second; a macro without parameters, which the other two programs call, ends the program; a macro call with
  a position beyond the words of a chunk without words reads after the end of the array (the check for this takes word 1, which does not exist); an assignment to a position beyond the words of the chunk is undefined behaviour
  where reading is ignored (C76); with null flush the word-bound blanks of variables are kept (C46).
* Parts of words in rules: an escaped `<` in a lemma begins the tags, so that `lem` is cut there; the `#` of `C#` belongs to neither `lemh` nor `lemq`, and an escaped `#` is taken for the beginning of an invariable part; an escaped
  `{` in the name of a chunk is taken for the beginning of its content (C77).
* `apertium-postchunk`: the word-bound blanks that came with the value of a variable are lost when it is assigned to another variable (C79).
* Tagger definitions: a label that no definition has (a misspelt one) is silently the tag LPAR, and adds a state to the tagger; a tag used in a sequence before its definition cannot be defined any more; `<label-item ...></label-item>`
  in a `label-sequence` is rejected; sections in another order and everything after an unknown section are silently ignored; a definition without patterns swallows the next; a reader used for a second file keeps the preferences,
  discards and patterns of the first (C80).
* `apertium-tagger`: the flags of `-b` and `-e` are not initialised, so that `-b` can be rejected as given twice and a training can skip errors that nobody asked to skip; `-h` of the usage is not accepted; `-u 12` is; `-r` and
  `-t` with `-x` abort; `-1` iterations are 2^64 - 1 (C81).  Retraining (`-r`) throws the probabilities of the tagger away, reads standard input as the dictionary, and iterates from uninitialised memory; a tagger file is lost
  if the program is stopped between opening and writing it (C82).
* Rules: the call of a macro that is not defined (also of the name of a category, which the document type lets pass) runs the first macro of the file; variables and lists that are not defined, and parts that are not defined
  in macros, are not reported (C85).
* LaTeX: accents that are not in the table (`\v{s}`, `\k{a}`, `\=o`, and `\'{i}`) come back as `<v{s}/>`; `\'\i` without braces becomes `j`; `\#` becomes the undefined command `\HASH` and `#1` becomes `\#1`; `\begin{my-env}` is torn in two;
  `\verb|<b>|` and comments with tags are changed; an option of `\usepackage` outside ASCII gains a bracket (C86).  *Reading only*: behind `\$` the text is taken for a formula and not translated.
* `apertium-adapt-docx`: text moves across whatever stands between two runs (a tab, a hyperlink, a run with two texts), so that the order of the text changes; a run whose text moves away is removed with the line breaks, tabs or pictures
  in it; a text divided by a comment is doubled, a text in a CDATA section can be lost; a hyphen at the end of a paragraph loses its format (C87).
* `apertium-filter-ambiguity`: a word whose only analysis is empty is written as `^a$`, and swallows the next word when the output is read; a discard rule can make the class of a line another than the class it was written for (C88).
* Prefer and discard rules: the names of tags go into the regular expression unescaped, so `<a+>` does not fit the tag `a+` but fits `aa`; a star can take an escaped angle bracket of the lemma for a tag; the search is not anchored, so that a rule `n.sg` also fits `<n><sg><gen>` (C90).
* `apertium-postlatex`: `ł` becomes `\l` without braces, so that `ład` comes back as `\lad`; a character beyond U+FFFF is cut to sixteen bits; accented letters of verbatim text become commands (C91). It handles number signs, which `apertium-postlatex-raw` does not.
* `apertium-tagger-apply-new-rules` numbers the tags by the new definition, so that with the tags in another order rules are applied to the wrong tags; it loses the discards of the tagger (C92).
* `apertium-tagger-readwords` reports unknown words as words with an ambiguity class out of range (C93).
* Coarse tags: an analysis with a tag that no pattern of the definition names has the tag kUNDEF for the HMM tagger, but for the perceptron tagger the coarse tag it would have without that tag; an escaped `<` in a lemma makes the HMM tagger find none (C94).
* Similarity of sentences: the comparison ends with the shorter of the two ordered lists of words, so that numbers that come last are not seen; `1` and `1 2 3 4` get the ten extra points for numbers that agree (C95).
* `apertium-tmxbuild` hands the sentences to the aligner one per line, but a sentence may contain newlines: it is then aligned as several sentences, and the empty line between two sentences as one more; each text ends with an empty sentence of its own (C96).
* Feature vectors: what the perceptron tagger prints as the features of a word has the value 1 for a feature that occurs twice, while the score counts it twice (C97).
* `apertium-tmxbuild`: a column that ends in two placeholders with a space between them gives a segment that ends in `<ph/`, and the TMX file is no XML (C98).
* `apertium-transfer` empties the output file before it looks for the input, the rules and the dictionary; with `-b` or `-n` and five files it reads a dictionary that it does not use (C99).
* A preference with a `>` in `AP_SETVAR` comes out in the translation as `[<STREAMCMD:SETVAR:…>]`; a value that ends in `=` loses it (C100).
* `apertium -m memory` without `-o` gives `lt-tmxcomp` an empty direction, against the usage message; `apertium -z en-es in.txt -u` writes to a file named `-u` (C101).
