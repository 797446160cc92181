#!/usr/bin/env python3
"""Writes properties.jsonl from the table below (one JSON object per line)."""
import json, os
P = []
def p(id, title, statement, quantifier, why, *anchors):
    P.append(dict(id=id, title=title, statement=statement, quantifier=quantifier,
                  why_tests_cant=why, anchors=list(anchors)))

p("C01", "apertium-posttransfer collapses spaces and nothing else",
  "The output of apertium-posttransfer is the input with every maximal run of U+0020 replaced by a single U+0020: no two consecutive spaces are written, every other character is written unchanged in the same order, and running the tool on its own output changes nothing.",
  "all input texts of any length, all chunkings by NUL",
  "the claim is about every text; tests see only sample texts",
  "apertium/apertium_posttransfer.cc:processStream")
p("C02", "apertium-pretransfer copies everything outside lexical units",
  "On every well-formed stream, free text, escaped characters, superblanks [..], word-bound blanks [[..]] and NULs are copied to the output unchanged and in order; only the inside of ^..$ may change.",
  "all well-formed streams (any number of text, blank, word-bound blank, lexical unit and NUL items of any size)",
  "ranges over unboundedly many interleavings of blanks, escapes and words",
  "apertium/pretransfer.cc:processStream", "apertium/pretransfer.cc:readAndWriteUntil", "apertium/pretransfer.cc:storeAndWriteWblank")
p("C03", "apertium-pretransfer splits multiwords at + and moves the invariable part",
  "For lemmas, tags and queues free of the stream's delimiters, a lexical unit ^l1<t1>+l2<t2>+...+ln<tn>#q$ is rewritten as ^l1#q<t1>$ ^l2<t2>$ ... ^ln<tn>$: one unit per part, in order, separated by exactly one space, the queue #q moved right after the first lemma; without '#' the parts are simply split; with -e a '~' splits without the space.",
  "all lexical units with any number of parts, lemmas, tags and queue",
  "unbounded number of parts and characters",
  "apertium/pretransfer.cc:procWord")
p("C04", "apertium-pretransfer gives every part of a split multiword the word-bound blank",
  "When a multiword carrying a word-bound blank [[b]] is split in n parts, every part of the output is preceded immediately by [[b]].",
  "all word-bound blanks and all multiwords",
  "unbounded blanks and parts",
  "apertium/pretransfer.cc:procWord", "apertium/pretransfer.cc:processStream")
p("C05", "apertium-pretransfer always terminates",
  "On every input, well-formed or truncated anywhere, apertium-pretransfer either finishes or reports 'Unexpected EOF'/'Wordbound blank' and exits; it never loops.",
  "all inputs, in particular all truncation points",
  "non-termination cannot be observed by a finite test, and the truncation point ranges over all inputs",
  "apertium/pretransfer.cc:procWord", "apertium/pretransfer.cc:storeAndWriteWblank", "apertium/pretransfer.cc:readAndWriteUntil")
p("C06", "apertium-cleanstream keeps exactly the lexical units",
  "On every well-formed stream apertium-cleanstream outputs exactly the lexical units of the input, unchanged and in order, separated by whitespace only (one unit per line with -n); with -b superblanks are kept too.",
  "all well-formed streams",
  "unbounded streams",
  "apertium/apertium_cleanstream.cc:main")
p("C07", "apertium-wblank-detach closes every word-bound blank once",
  "On every well-formed stream the output of apertium-wblank-detach is the input with [[/]] inserted right after the first lexical unit following a word-bound blank and nowhere else; nothing is removed or reordered.",
  "all well-formed streams including NUL-separated ones",
  "unbounded interleavings",
  "apertium/wblank-detach.cc:main")
p("C08", "apertium-wblank-attach distributes the open word-bound blanks",
  "On every stream with properly nested [[..]] / [[/]], every lexical unit is output preceded by one [[..]] listing, in order of opening and without duplicates, exactly the word-bound blanks open at that point, the [[..]] and [[/]] marks themselves disappear and everything else is copied.",
  "all well-nested streams of any depth and length",
  "unbounded nesting depth and history",
  "apertium/wblank-attach.cc:main", "apertium/wblank-attach.cc:trim_wb")
p("C09", "wblank-attach treats NUL as a full reset",
  "In null-flush mode the processing of one NUL-terminated request never depends on earlier requests: for all A, B, output(A NUL B) = output(A) NUL output(B), without undefined behaviour.",
  "all pairs of requests, including truncated or ill-nested ones",
  "ranges over all histories of a long-running process",
  "apertium/wblank-attach.cc:main")
p("C10", "null-flush isolation of the stateless filters",
  "apertium-posttransfer, apertium-wblank-detach and apertium-pretransfer process NUL-separated requests independently: output(A NUL B) = output(A) NUL output(B) (for apertium-pretransfer, A being a complete well-formed request).",
  "all requests A, B",
  "ranges over all histories of a long-running process",
  "apertium/apertium_posttransfer.cc:processStream", "apertium/wblank-detach.cc:main", "apertium/pretransfer.cc:processStream")
p("C11", "transfer conditions are Boolean logic",
  "In t1x/t2x/t3x rules, <and>, <or>, <not> evaluate to the conjunction, disjunction and negation of their sub-conditions for every nesting; <equal>, <in>, <begins-with>, <ends-with>, <contains-substring> (and the -list versions) hold exactly when the string equality / membership / prefix / suffix / infix relation holds, caselessly when caseless=\"yes\".",
  "all condition trees and all operand strings",
  "unbounded nesting and strings",
  "apertium/transfer_base.cc:processLogical", "apertium/transfer_base.cc:processAnd", "apertium/transfer_base.cc:processOr",
  "apertium/transfer_base.cc:processBeginsWith", "apertium/transfer_base.cc:processEndsWith", "apertium/transfer_base.cc:processIn")
p("C12", "choose runs exactly one branch",
  "<choose> executes the body of the first <when> whose test holds, no other <when>, and the <otherwise> body exactly when no test holds; tests after the chosen one are not evaluated.",
  "all choose elements with any number of branches and any state",
  "unbounded branches and states",
  "apertium/transfer_base.cc:processChoose")
p("C13", "clip/let laws of lexical units in transfer",
  "Assigning to a part of a word and reading that part back gives the assigned value when the part was present; assigning leaves the rest of the lexical unit and the other side untouched; assigning a part the value it has changes nothing; assigning to an absent part changes nothing.",
  "all words, attributes and values",
  "ranges over all strings",
  "apertium/transfer_word.cc:setSource", "apertium/transfer_word.cc:setTarget", "apertium/apertium_re.cc:replace", "apertium/apertium_re.cc:match")
p("C14", "word-bound blanks are merged without loss",
  "Combining two word-bound blanks yields a single [[..]] containing the pieces of the first then the pieces of the second separated by '; '; an empty blank is neutral; combination is associative.",
  "all pairs/triples of word-bound blanks",
  "ranges over all strings",
  "apertium/transfer_base.cc:combineWblanks")
p("C15", "transfer loses no blanks",
  "After a rule has been applied, every blank between the words it matched has been output exactly once, in order: those consumed by <b/> where the rule puts them, the remaining non-single-space ones after the rule's output.",
  "all rules and all numbers of blanks",
  "ranges over all rule bodies",
  "apertium/transfer_base.cc:processRule", "apertium/transfer_base.cc:processBlank")
p("C16", "left-to-right longest match in transfer",
  "At each position transfer applies the rule matching the longest sequence of words starting there; words matched by no rule are output by the default action; every input word is consumed exactly once and every blank between consumed items is kept.",
  "all rule automata and all input streams",
  "ranges over all automata and inputs",
  "apertium/transfer.cc:transfer", "apertium/transfer.cc:applyRule")
p("C17", "rule compilation to regexps keeps attribute values",
  "The regular expression compiled for a def-attr matches exactly the listed tag sequences (ignoring case); searched for in a word, it finds the leftmost place where one of them occurs and there the longest one.",
  "all finite sets of attribute items",
  "ranges over all sets of strings",
  "apertium/transfer_regex.cc:optimize_regex", "apertium/transfer_regex.cc:unbuildTrie")
p("C18", "chunk words are split at the first unescaped brace",
  "Reading a chunk ^name<tags>{^..$ ^..$}$ gives the head up to the first unescaped '{' and the queue from there on; concatenating them gives back the chunk, and tag assignment affects only the head.",
  "all chunk strings",
  "ranges over all strings",
  "apertium/interchunk_word.cc:init", "apertium/interchunk_word.cc:setChunkPart")
p("C19", "the HMM tagger finds the most likely tag sequence",
  "Between two unambiguous words the tag sequence output by the HMM tagger has maximal probability (product of transition and emission probabilities) among all tag sequences compatible with the words' ambiguity classes.",
  "all HMM parameter tables over an ordered semiring, all word sequences",
  "the number of competing paths is exponential; tables are arbitrary",
  "apertium/hmm.cc:tagger")
p("C20", "the HMM tagger outputs each word exactly once",
  "For every input the tagger writes each lexical unit once, in order, with one of the tags of its ambiguity class chosen.",
  "all input streams and all parameter tables",
  "ranges over all histories",
  "apertium/hmm.cc:tagger")
p("C21", "forbid and enforce rules are honoured by the HMM transition matrix",
  "After applying the tag-sequence rules, every forbidden transition has probability zero, every transition out of an enforced tag to a tag not in its list is zero, and every row sums to one unless it is entirely zero.",
  "all matrices and all rule sets",
  "ranges over all matrices",
  "apertium/hmm.cc:apply_rules")
p("C22", "the LSW tagger respects forbid/enforce rules",
  "A tag triple accepted by the sliding-window tagger contains no forbidden bigram and respects each enforce rule at both positions.",
  "all tag triples and all rule sets",
  "ranges over all rule sets",
  "apertium/lswpost.cc:is_valid_seq")
p("C23", "discard-on-ambiguity removes exactly the discardable analyses",
  "When a discard pattern matches some but not all analyses of a word, exactly the matching analyses (and the tags only they carry) are removed; at least one analysis always remains.",
  "all words and patterns",
  "ranges over all ambiguity classes",
  "apertium/tagger_word.cc:discardOnAmbiguity")
p("C24", "ambiguity class table is a bijection that survives save and load",
  "The collection of ambiguity classes numbers each distinct set of tags exactly once with consecutive indices, lookups by index and by set are inverse to each other after any sequence of insertions, and writing and reading it back gives the same numbering.",
  "all sequences of additions and lookups",
  "ranges over all operation histories",
  "apertium/collection.cc:Collection")
p("C25", "unknown ambiguity classes map to the smallest known superset, independently of history",
  "For a set of tags c absent from the table, the replacement class contains c, and the answer depends on c and the table only, not on earlier queries.",
  "all tables, all query histories",
  "ranges over all histories of queries",
  "apertium/tagger_utils.cc:find_similar_ambiguity_class")
p("C26", "unigram training counts are exact and order independent",
  "After training on a corpus the score of an analysis is proportional to the sum, over the corpus tokens listing it, of its occurrences divided by the number of analyses of the token; permuting the corpus does not change any ratio.",
  "all corpora in all orders",
  "ranges over all training histories; rounding only shows for particular mixes of ambiguity",
  "apertium/unigram_tagger.cc:train", "apertium/unigram_tagger.cc:multiplyModel")
p("C27", "the unigram tagger outputs the best scoring analysis",
  "The first analysis output for a lexical unit is one of its analyses and none of its analyses scores strictly higher; on ties the first in the input wins; with -f the rest follows and none is lost.",
  "all lexical units, all models",
  "ranges over all scores",
  "apertium/unigram_tagger.cc:tag", "apertium/stream.cc:outputLexicalUnit")
p("C28", "lexical-unit text round trip",
  "Printing an analysis (lemma<tag>...+lemma<tag>...) and parsing the text gives back the same analysis.",
  "all analyses",
  "ranges over all strings",
  "apertium/analysis.cc", "apertium/morpheme.cc", "apertium/stream.cc:get")
p("C29", "tagger models survive serialisation",
  "Writing any tagger model (nested maps of analyses, lemmas, tags and counts; double matrices) and reading it gives back the same model, consuming exactly the bytes written.",
  "all models",
  "ranges over all nested structures and all bit patterns of doubles",
  "apertium/serialiser.h", "apertium/deserialiser.h", "apertium/endian_double_util.cc")
p("C30", "NUL handling in the unigram and SPV tagger streams",
  "A NUL in the tagger's input is written to the output at the same position, so a caller in null-flush mode gets a reply to every request.",
  "all streams",
  "ranges over all positions of NUL",
  "apertium/unigram_tagger.cc:tag", "apertium/stream.cc:get", "apertium/sentence_stream.cc")
p("C31", "extraction of capitalisation keeps the stream",
  "apertium-extract-caps copies the text outside lexical units and the word-bound blanks, in order, keeps of every lexical unit its first analysis (with -s also the surface form), and adds to the unit's word-bound blank, after what was there, one piece c:X/Y with the case X of the surface form and Y of the analysis up to the tags of its last word. It ends normally on every input.",
  "all well-formed streams, options and case functions", "ranges over all streams",
  "apertium/apertium_extract_caps.cc:main", "apertium/apertium_extract_caps.cc:read_lu", "apertium/apertium_extract_caps.cc:lemma_case")
p("C32", "averaged perceptron weights",
  "After any sequence of updates the averaged weight of each feature equals the mean over all iterations of its running value.",
  "all update histories",
  "ranges over all histories",
  "apertium/feature_vec_averager.cc", "apertium/feature_vec.cc")
p("C33", "wblank mode rewriting is idempotent",
  "Rewriting a mode a second time with apertium-wblank-mode changes nothing more, and rewriting keeps all pipeline stages in order.",
  "all mode strings",
  "ranges over all strings",
  "apertium/wblank-mode.cc:main")
p("C34", "help texts are wrapped without loss",
  "Wrapping a help text at 79 columns always ends, keeps all words in order and uncut, leaves a text that fits on its line unchanged, and writes no line longer than 79 columns; the table of options shows every option and its description, the descriptions in one column.",
  "all texts, start columns, margins and tables of options",
  "ranges over all strings",
  "apertium/linebreak.cc:linebreak", "apertium/align.cc:Align")
p("C35", "TMX sentence alignment is optimal",
  "The alignment of two books that apertium-tmxbuild computes has the best total score among all monotone alignments of all sentences of both books with pairs, single sentences, one sentence for two and two for one, inside the band that it looks at; and the result is that alignment.",
  "all similarity matrices, lengths of sentences and books that the tool accepts",
  "exponentially many alignments",
  "apertium/tmx_alignment.cc:buildDynProgMatrix", "apertium/tmx_alignment.cc:trelliToLadder", "apertium/tmx_quasi_diagonal.h:QuasiDiagonal")

p("C36", "apertium-pretransfer honours escapes inside words",
  "An escaped reserved character inside a lemma is an ordinary character: it neither ends the unit nor starts a tag, a queue or a new part.",
  "all lemmas with escaped characters at any position",
  "ranges over all strings",
  "apertium/pretransfer.cc:procWord")

p("C37", "apertium-wblank-detach never loses text",
  "For every input, even truncated or malformed, each input character is written, in order (the output only has additional closing marks).",
  "all inputs",
  "ranges over all inputs and truncation points",
  "apertium/wblank-detach.cc:main")

p("C38", "output units carry the word-bound blanks of the words they are made from",
  "In a transfer rule that matched several words, a non-empty <lu> is written with one word-bound blank made of the pieces of the blanks of exactly the words whose lemma it uses (directly or through a variable), in order of use; in a rule that matched one word it carries that word's blank.",
  "all rules, words and blanks",
  "ranges over all rule bodies and all blanks",
  "apertium/transfer.cc:Transfer::processLu", "apertium/transfer.cc:Transfer::evalCachedString", "apertium/transfer.cc:Transfer::processMlu")
p("C39", "a rule that rejects itself leaves no trace",
  "If a rule reaches <reject-current-rule> before any <out>, nothing has been written to the output: the words and blanks it matched are then handled by other rules exactly once.",
  "all rules and all queues of blanks",
  "ranges over all rules and inputs",
  "apertium/transfer_base.cc:TransferBase::processRule", "apertium/transfer_base.cc:TransferBase::processRejectCurrentRule")
p("C40", "variables and macros in transfer",
  "After <let><var n=x/>e</let> the variable x reads as the value of e and no other variable or word changed; in a macro, position k means the caller's k-th argument, and after the call the positions mean in the caller what they did before.",
  "all expressions, states, macros and nesting depths",
  "ranges over all programs",
  "apertium/transfer.cc:Transfer::processLet", "apertium/transfer.cc:Transfer::processCallMacro")

p("C41", "unfolding a chunk",
  "apertium-postchunk writes a chunk no rule matches word by word: blanks as they are, word-bound blanks before their words, every <k> in a word replaced by the k-th tag of the chunk (nothing if there is none), and the case of the chunk's name transferred to its words.",
  "all chunks: any number of words, tags, references, blanks", "ranges over all chunks",
  "apertium/postchunk.cc:Postchunk::unchunk", "apertium/postchunk.cc:Postchunk::getVecTags", "apertium/postchunk.cc:Postchunk::beginChunk", "apertium/postchunk.cc:Postchunk::pseudolemma")
p("C42", "what a postchunk rule sees of a chunk",
  "A postchunk rule gets the head of the chunk as word 0 and each word with its word-bound blank, references replaced and case transferred; its <b/> are the blanks between the words; the blank that follows the chunk in the input does not change.",
  "all chunks and following blanks", "ranges over all chunks",
  "apertium/postchunk.cc:Postchunk::splitWordsAndBlanks", "apertium/postchunk.cc:Postchunk::applyRule", "apertium/postchunk.cc:Postchunk::wordzero")
p("C43", "transfer programs read a stream as words and blanks without loss",
  "apertium-transfer, -interchunk and -postchunk read every well-formed stream as its words (in transfer with their word-bound blanks) and the texts between them, up to the end of the input or a NUL in null flush mode; what follows the NUL is left; reading always ends.",
  "all streams, escapes, superblanks, both modes", "ranges over all streams and truncation points",
  "apertium/transfer.cc:Transfer::readToken", "apertium/interchunk.cc:Interchunk::readToken", "apertium/postchunk.cc:Postchunk::readToken")
p("C44", "case handling can be left to the dictionary",
  "With case left to the dictionary, apertium-postchunk does not change the case of any word of a chunk, in the default action or in rules.",
  "all chunks", "ranges over all chunks",
  "apertium/postchunk.cc:Postchunk::unchunk", "apertium/postchunk.cc:Postchunk::splitWordsAndBlanks")
p("C45", "interchunk without matching rules is the identity",
  "apertium-interchunk writes every well-formed stream exactly as it is when no rule matches.",
  "all streams, all rule sets that match nothing", "ranges over all streams",
  "apertium/interchunk.cc:Interchunk::interchunk", "apertium/interchunk.cc:Interchunk::readToken")
p("C46", "null flush keeps requests apart",
  "In null flush mode the parts of the input between NULs are each translated as they would be alone (variables at their defaults), and each output ends with a NUL.",
  "all sequences of parts, all rule sets", "ranges over all histories of requests",
  "apertium/interchunk.cc:Interchunk::interchunk_wrapper_null_flush", "apertium/postchunk.cc:Postchunk::postchunk_wrapper_null_flush", "apertium/transfer.cc:Transfer::transfer_wrapper_null_flush")
p("C47", "a word with translations is taken apart correctly",
  "With -b, of a word [[wb]]^source/target/.../last$ a rule gets the word-bound blank, the source, the first translation as target and the last of several as reference; the default action writes the first translation with the word-bound blank; patterns see the source only, in lower case. Escaped characters and a / inside a tag delimit nothing.",
  "all words, numbers of translations, escapes", "ranges over all words",
  "apertium/transfer.cc:Transfer::applyRule", "apertium/transfer.cc:Transfer::transfer", "apertium/transfer.cc:Transfer::applyWord")
p("C48", "text no rule matches passes through the three transfer stages unharmed",
  "apertium-transfer -b, apertium-interchunk and apertium-postchunk with no matching rule together replace every lexical unit by its first translation and change nothing else.",
  "all texts", "ranges over all texts, and composes three programs",
  "apertium/transfer.cc:Transfer::transfer", "apertium/interchunk.cc:Interchunk::interchunk", "apertium/postchunk.cc:Postchunk::postchunk")

p("C49", "initial HMM parameters are the smoothed counts",
  "After unsupervised initialisation the transition and emission probabilities are the smoothed expected counts (each ambiguous word shared equally among its tags) divided by their totals; after supervised initialisation they are the smoothed counts of the tagged text; every row is a probability distribution and no allowed transition has probability zero.",
  "all texts, ambiguity classes and numbers of tags", "ranges over all training texts",
  "apertium/hmm.cc:HMM::init_probabilities_kupiec", "apertium/hmm.cc:HMM::init_probabilities_from_tagged_text")
p("C50", "training of the sliding-window tagger shares one unit of weight per place of the text",
  "Initially every three consecutive words share 1 equally among the tag triples the rules accept; in an iteration of training in proportion to the old parameters. A triple refused by the rules keeps weight zero for ever, no weight is negative and the total is the number of places that have an acceptable triple.",
  "all texts, rules, numbers of iterations", "ranges over all texts and histories of training",
  "apertium/lswpost.cc:LSWPoST::init_probabilities", "apertium/lswpost.cc:LSWPoST::train")
p("C51", "the sliding-window tagger writes every word once with the best tag",
  "Every word of the text is written once, in order and with the text around it, with a tag of its own of greatest total weight given the tags of its neighbours (the first such tag on ties).",
  "all texts and parameters", "ranges over all texts",
  "apertium/lswpost.cc:LSWPoST::tagger")

p("C52", "Baum-Welch training computes expected counts",
  "An iteration of unsupervised HMM training sets the transition and emission probabilities to the relative expected frequencies of transitions, tags and emissions, the expectation being over all sequences of tags of the text under the old parameters, given the words; every row is a probability distribution and no parameter becomes zero, whatever the number of iterations.",
  "all texts, parameters, numbers of iterations", "exponentially many tag sequences; ranges over all texts",
  "apertium/hmm.cc:HMM::train")

p("C53", "the unigram tagger changes nothing but the lexical units",
  "apertium-tagger with a unigram model ends normally on every well-formed stream and writes the text between lexical units as it was, with one lexical unit for each one read, in order.",
  "all well-formed streams, models and flags", "ranges over all streams; escapes, superblanks and unknown words at any position",
  "apertium/unigram_tagger.cc:UnigramTagger::tag", "apertium/stream.cc:Stream::get", "apertium/stream.cc:Stream::outputLexicalUnit")
p("C54", "the sentence (perceptron) tagger changes nothing but the lexical units",
  "The sentence tagger writes the text between lexical units as it was and each lexical unit once, in order, with the analysis that the sentence's tagging gave for it, whatever the division in sentences.",
  "all well-formed streams, sentence taggers, flags", "ranges over all streams and sentence boundaries (tokens are buffered per sentence)",
  "apertium/sentence_stream.cc:SentenceTagger::tag", "apertium/sentence_stream.cc:SentenceTagger::tagAndPutSentence")
p("C55", "the perceptron's training corpus pairs words correctly",
  "The training corpus built from a tagged and an untagged stream pairs each untagged unit with the analysis of the tagged unit at the same position, divided at sentence ends; streams that differ are refused, or with --skip-on-error exactly the sentences that differ are left out.",
  "all pairs of streams", "ranges over all positions where the streams may differ",
  "apertium/sentence_stream.cc:TrainingCorpus::TrainingCorpus", "apertium/sentence_stream.cc:TrainingCorpus::contToEndOfSent")

p("C56", "the perceptron tagger's beam search",
  "The perceptron tagger gives every word of a sentence one of its own analyses, in order (none to a word without analyses), and ends for every sentence and every beam width of at least one. If the beam holds all combinations of analyses of the words before the last ambiguous one, the answer has the greatest total weight of features among all combinations.",
  "all sentences, weights, feature templates, beam widths and orders of equal scores", "exponentially many combinations; the standard library may order ties in any way",
  "apertium/perceptron_tagger.cc:PerceptronTagger::tagSentence", "apertium/perceptron_tagger.cc:PerceptronTagger::extendAgendaAll")
p("C57", "perceptron training updates exactly on errors and stops",
  "Training on a sentence changes the weights if and only if the tagger with the current weights errs on it; an update adds the features of the right analyses and subtracts those of analyses that scored at least as well, for the same words. On separable data the number of updates is bounded, for every number of iterations and every order of the sentences, and after enough iterations all training sentences are tagged right. The weights that are left are the averages, and computing them is always defined.",
  "all corpora, feature templates, beam widths, orders and numbers of iterations", "ranges over all training histories and shuffles",
  "apertium/perceptron_tagger.cc:PerceptronTagger::trainSentence", "apertium/perceptron_tagger.cc:PerceptronTagger::train", "apertium/feature_vec_averager.cc:FeatureVecAverager::average")

p("C58", "perceptron feature templates mean what they say",
  "The features that the perceptron tagger computes at a position are exactly those that the templates of the .mtx file describe: each template whose conditions hold gives one feature for each choice of one string per output, with the values that its expressions have at that position; a template with a false condition or an empty output list gives none. Addresses are adjusted and clamped to wordoids of the sentence.",
  "all templates the reader accepts, all sentences, partial taggings and positions", "ranges over all expression trees, loops and sentences",
  "apertium/perceptron_spec.cc:PerceptronSpec::Machine", "apertium/perceptron_spec.cc:PerceptronSpec::get_features", "apertium/mtx_reader.cc:MTXReader")

p("C59", "restoration of capitalisation keeps the text",
  "apertium-restore-caps copies the text outside lexical units in order and writes every lexical unit as its surface form, unchanged, in small letters, in title case or in capitals, enclosed by its word-bound blank (without the pieces about capitals unless -k) and [[/]] if it has one. It ends normally on every input, whatever the rules.",
  "all well-formed streams, rule automata, case functions and options", "ranges over all streams and rule sets",
  "apertium/caps_restorer.cc:CapsRestorer::process", "apertium/caps_restorer.cc:CapsRestorer::read_word", "apertium/caps_restorer.cc:CapsRestorer::output_all")
p("C60", "restoration of capitalisation chooses the variant of greatest weight",
  "Every word is written as the variant for which the rules that match it, ending at it or at a later word of the same section, have the greatest total weight, each rule being counted once per end position; in case of a tie the first of dictionary form, small letters, title case, capitals. Sections separated by NUL do not influence each other.",
  "all sections of words, rule automata and weights", "ranges over all overlapping matches of rules",
  "apertium/caps_restorer.cc:CapsRestorer::process", "apertium/caps_restorer.cc:CapsRestorer::output_all")
p("C61", "the source case reaches the restoration rules",
  "If nothing in between changes a word-bound blank, the rules of apertium-restore-caps see exactly the case that apertium-extract-caps recorded for the word, and the word-bound blank written at the end is the one that was there before the extraction.",
  "all word-bound blanks", "ranges over all contents of word-bound blanks",
  "apertium/apertium_extract_caps.cc:main", "apertium/caps_restorer.cc:CapsRestorer::read_word")

p("C62", "the aligned text is complete",
  "The lines that the aligner writes contain every sentence of both books exactly once, in the order of the books, whatever filters are applied to the alignment; with -bisent, every sentence is in at most one pair and the pairs are in the order of both books. The aligner ends normally on all books that it accepts.",
  "all books, scores, options and decisions of the filters",
  "ranges over all alignments and all decisions of the filters",
  "apertium/tmx_aligner_tool.cc:alignerToolWithObjects", "apertium/tmx_trail_postprocessors.cc:spaceOutBySentenceLength", "apertium/tmx_trail_postprocessors.cc:filterTrailByQuality", "apertium/tmx_alignment.cc:trailToBisentenceList")
p("C63", "translation units have both segments, as well-formed text",
  "apertium-tmxbuild writes a translation unit for every aligned pair of sentences with enough text, with the segment of both languages; each segment is the sentence with <, > and & escaped, placeholders kept, and without the placeholders, spaces and full stops at its ends.",
  "all outputs of the aligner",
  "ranges over all texts",
  "apertium/tmx_builder.cc:TMXBuilder::outputTU", "apertium/tmx_builder.cc:TMXBuilder::printTU", "apertium/tmx_builder.cc:TMXBuilder::xmlize", "apertium/tmx_builder.cc:TMXBuilder::filter")
p("C64", "apertium-tmxbuild splits a text into sentences without losing any of it",
  "The sentences of a deformatted text, put together, are the text with its blanks replaced by placeholders and its escapes undone; a sentence ends at every question mark and exclamation mark, at every full stop before a space or a blank, at the end of the text, and nowhere else. Every text is split normally.",
  "all deformatted texts",
  "ranges over all strings",
  "apertium/tmx_builder.cc:TMXBuilder::nextTU", "apertium/tmx_builder.cc:TMXBuilder::sentenceList", "apertium/tmx_builder.cc:TMXBuilder::restOfBlank")

p("C65", "deformatting and reformatting give the document back",
  "A document that is deformatted and, without being changed, reformatted comes back byte for byte (in formats with a replacement table: except that an entity of the table may come back as the character it stands for), the temporary files of large blocks are read back and removed, and both programs end normally; whatever the options are.",
  "all documents, all formats of the repository, all options", "ranges over all documents; the lexers are generated from expressions with overlapping matches",
  "apertium/deformat.xsl", "apertium/reformat.xsl", "apertium/txt-format.xml", "apertium/html-format.xml", "apertium/html-noent-format.xml", "apertium/html-alt-format.xml", "apertium/latex-format.xml", "apertium/mediawiki-format.xml", "apertium/odt-format.xml", "apertium/pptx-format.xml", "apertium/wxml-format.xml", "apertium/xlsx-format.xml", "apertium/xpresstag-format.xml", "apertium/rtf-format.xml")
p("C66", "a deformatter writes a well-formed stream and the reformatter restores every blank",
  "In the stream that a deformatter writes, every character with a meaning is escaped, blanks are closed and not nested. The reformatter writes the text of such a stream without its escapes, every blank as it was in the document and every referenced file in place of its reference, in any order the translator may have put them, and removes exactly these files; a reference to a missing file is an error.",
  "all documents, formats and options; all streams of text, blanks and references", "ranges over all texts and orders of blanks",
  "apertium/deformat.xsl", "apertium/reformat.xsl")
p("C67", "the stream of the text deformatter",
  "The text deformatter writes each word with its special characters escaped, a single space as it is, any other white space in brackets (more than 8192 characters in a file), and a sentence mark before white space that has an empty line and at the end of the document, and nowhere else; with -i also before every white space in brackets.",
  "all UTF-8 texts and all options", "ranges over all texts",
  "apertium/deformat.xsl", "apertium/txt-format.xml")

p("C68", "markup goes into blanks and text does not",
  "A document in any of the formats is divided in one way into tokens: at each position the longest match of the rules that are active there, of equal ones the first; a comment rule makes everything up to its end markup, where only rules of a smaller priority number are active. The markup between two texts is written as one blank (nothing and a single space as they are, large blocks as references to files), text outside of blanks with its entities decoded and its special characters escaped, and the marks of the ends of sentences and headers stand before exactly those blanks that have one, and at the end of the document.",
  "all documents, all formats of the repository, all options", "ranges over all documents and all overlapping matches",
  "apertium/deformat.xsl", "apertium/html-format.xml", "apertium/latex-format.xml", "apertium/rtf-format.xml")

p("C69", "apertium-gen-modes makes the debug modes of every step and leaves the given modes as they are",
  "The modes that are made from a file of modes are: every mode of the file, with its programs and arguments in their order (of modes with the same name the last); for each step of a mode with gendebug=yes and each suffix of the step (those given, or those of a fixed table by the program and its options), the mode of the steps up to that one with the last program traced, unless there is a mode with that name already; and for each of these a mode whose name has an @ before it, in which the last .automorf. of each argument is .automorf-untrimmed.; and no others. The trace option is added once; the program ends normally on every file.",
  "all files of modes (trees of elements), all names, programs and arguments", "ranges over all files of modes",
  "apertium/gen_modes.cc:read_modes", "apertium/gen_modes.cc:set_debug_suffixes", "apertium/gen_modes.cc:set_trace_opt", "apertium/gen_modes.cc:gen_debug_modes")
p("C70", "apertium-gen-modes writes the files of exactly the modes that are wanted, and a shell runs them as they were given",
  "When it installs, the program writes one file for each mode with install=yes and none for debug modes, with the paths below the prefix; otherwise it writes one file for each mode and debug mode in the directory modes, with the paths below the directory of the file. No file is written twice. A shell reads a file as the programs of the mode in their order, with their arguments; each path of a file is one word.",
  "all files of modes, all options, directories and paths", "ranges over all files of modes and all paths",
  "apertium/gen_modes.cc:gen_mode", "apertium/gen_modes.cc:gen_modes", "apertium/gen_modes.cc:main")

p("C71", "apertium-multiple-translations writes every combination of the translations",
  "For each longest run of words that a rule matches, the program writes one variant for every way to choose a translation of each word, in the order of the dictionary (a default translation first, only the marked ones if two are marked), with the blanks between the words, and marks of their beginning, separation and end if there is more than one; a word that no rule matches is written with all its translations; every blank is written once and the program ends.",
  "all streams, all dictionaries and all pattern automata", "ranges over all inputs, rules and dictionaries",
  "apertium/transfer_mult.cc:TransferMult::readToken", "apertium/transfer_mult.cc:TransferMult::acceptions", "apertium/transfer_mult.cc:TransferMult::writeMultiple", "apertium/transfer_mult.cc:TransferMult::applyRule", "apertium/transfer_mult.cc:TransferMult::transfer")

p("C72", "The first rule whose pattern the words fit is used",
  "A category of a file of rules matches exactly the words that fit one of its items, where * in a lemma or name stands for one or more characters, * among the tags for one or more tags, and an item without a lemma matches any; a file can be read if each category that is used is defined and has an item; the rule that is used for a sequence of words is the first in the file with a pattern of that length in which each word is in the category of its place, and none is used if there is no such rule; of rejected rules none is used again.",
  "all files of rules and all sequences of words", "ranges over all files of rules and all inputs",
  "apertium/trx_reader.cc:TRXReader::insertCatItem", "apertium/trx_reader.cc:TRXReader::procDefCats", "apertium/trx_reader.cc:TRXReader::procRules", "apertium/transfer_data.cc:TransferData::write", "apertium/transfer.cc:Transfer::applyWord", "apertium/interchunk.cc:Interchunk::applyWord", "apertium/postchunk.cc:Postchunk::applyWord")

p("C73", "the rules of apertium-compile-caps decide the case of each word",
  "A file of rules can be compiled exactly if no match gives both a pattern and a case for the lemma or the surface form, each select is a known one, and the bounds of each repeat are in order. At each word apertium-restore-caps finds exactly the rules that match there (a match is a word whose case in the source, lemma, tags, surface form fit, * stands for one or more characters and any number of tags, + for one or more tags, ? for one; or is one of its elements, repeat a number of repetitions within the bounds, begin the start of a section), with the marks that they give to the last words. Every word is written in the variant for which the rules that match have the greatest total weight. The program ends normally on every well-formed stream and changes nothing but the case.",
  "all files of rules, all streams", "ranges over all rules (nested to any depth) and all inputs",
  "apertium/caps_compiler.cc:CapsCompiler::compile_rule", "apertium/caps_compiler.cc:CapsCompiler::compile_match", "apertium/caps_compiler.cc:CapsCompiler::compile_or", "apertium/caps_compiler.cc:CapsCompiler::compile_repeat", "apertium/caps_restorer.cc:CapsRestorer::step", "apertium/caps_restorer.cc:CapsRestorer::read_word", "apertium/caps_restorer.cc:CapsRestorer::process")

p("C74", "apertium-transfer translates a text as its rules say",
  "With -b, from left to right, the longest sequence of lexical units that fits the pattern of a rule is translated by the first such rule of the file, which gets just those units (source, first translation, reference, word-bound blank), the blanks between them, and the variables as the rules before left them; a unit at which no such sequence begins is written as its first translation, in a chunk or as a lexical unit; all text between is kept. If the program ends normally, this is what it has written; it ends normally whenever all rules used do.",
  "all files of rules (categories, patterns, actions, macros), all inputs", "ranges over all rules and all inputs; composes the reader, the pattern compiler, the main loop and the interpreter",
  "apertium/transfer.cc:Transfer::transfer", "apertium/transfer.cc:Transfer::applyRule", "apertium/transfer.cc:Transfer::applyWord", "apertium/transfer.cc:Transfer::readToken", "apertium/transfer_base.cc:TransferBase::processRule", "apertium/trx_reader.cc:TRXReader::procDefCats")

p("C75", "apertium-interchunk changes a text as its rules say",
  "From left to right, the longest sequence of chunks whose heads fit the pattern of a rule is given to the first such rule of the file, which gets just those chunks, the blanks between them, and the variables as the rules before left them; a chunk at which no such sequence begins, and all text between, is written as it is. If the program ends normally, this is what it has written; it ends normally whenever all rules used do. No rule changes what is inside a chunk, and a rule leaves nothing to later words but the variables.",
  "all files of rules (categories, patterns, actions, macros), all inputs", "ranges over all rules and all inputs; composes the reader, the pattern compiler, the main loop and the interpreter",
  "apertium/interchunk.cc:Interchunk::interchunk", "apertium/interchunk.cc:Interchunk::applyRule", "apertium/interchunk.cc:Interchunk::applyWord", "apertium/interchunk.cc:Interchunk::readToken", "apertium/interchunk.cc:Interchunk::processLet", "apertium/interchunk.cc:Interchunk::processCallMacro", "apertium/interchunk_word.cc:InterchunkWord::init")

p("C76", "apertium-postchunk unfolds a text as its rules say",
  "Each chunk is given, alone, to the first rule of the file whose pattern fits the chunk's name in lower case; the rule sees the head of the chunk as word 0, the words of the chunk (with references to the tags of the chunk replaced and the case of the name transferred) as words 1, 2, ..., each with its word-bound blank, the blanks between them, and the variables as the rules before left them. A chunk that no rule fits is written as its words and blanks; all text between chunks is written as it is. If the program ends normally, this is what it has written; it ends normally whenever all rules used do. A rule leaves nothing to later chunks but the variables.",
  "all files of rules (categories, patterns, actions, macros), all inputs", "ranges over all rules and all inputs; composes the reader, the pattern compiler, the main loop, the chunk splitter and the interpreter",
  "apertium/postchunk.cc:Postchunk::postchunk", "apertium/postchunk.cc:Postchunk::applyRule", "apertium/postchunk.cc:Postchunk::applyWord", "apertium/postchunk.cc:Postchunk::readToken", "apertium/postchunk.cc:Postchunk::processCallMacro", "apertium/postchunk.cc:Postchunk::splitWordsAndBlanks", "apertium/postchunk.cc:Postchunk::unchunk")

p("C77", "The predefined parts of a word are its lemma, its two halves, and its tags",
  "In rules, `lem` is the lemma of a word, `lemh` what precedes its invariable part, `lemq` the invariable part, `tags` all its tags, `whole` all of it; of a chunk, `content` is what is inside its braces. Assigning a text to one of them replaces it and nothing else, and assigning to an absent one changes nothing. A part that the rules define (`def-attr`) is the first listed sequence of tags of the word, the longest one at that place.",
  "all words, all values, all lists of attributes", "ranges over all words; the parts are regular expressions, whose meaning on a word depends on every character of it",
  "apertium/transfer_data.cc:TransferData::TransferData", "apertium/apertium_re.cc:ApertiumRE::match", "apertium/apertium_re.cc:ApertiumRE::replace", "apertium/interchunk_word.cc:InterchunkWord::chunkPart", "apertium/trx_reader.cc:TRXReader::procDefAttrs")
p("C78", "The instructions of apertium-interchunk mean what the documentation says",
  "In a rule, positions mean the chunks that the rule was applied to; in the body of a macro, the arguments. A clip is the part of that chunk (content: what is inside the braces), empty if there is no such chunk; a chunk in the output is `^`, the values of its items, `$`; a variable is what was assigned last; `<b/>` is the next blank of the input, or a space. An assignment to a part replaces it in the head of that chunk and changes nothing else; an assignment to a variable changes nothing else; modify-case only changes the case of the part. After a macro the positions mean what they did before. All blanks that are not single spaces are written, in order, those that the rule did not write at the end.",
  "all rules, chunks, variables, blanks", "ranges over all expressions, all nested instructions and macros, and all chunks",
  "apertium/interchunk.cc:Interchunk::evalCachedString", "apertium/interchunk.cc:Interchunk::processOut", "apertium/interchunk.cc:Interchunk::processChunk", "apertium/interchunk.cc:Interchunk::processLet", "apertium/interchunk.cc:Interchunk::processModifyCase", "apertium/interchunk.cc:Interchunk::processCallMacro", "apertium/interchunk.cc:Interchunk::applyRule", "apertium/transfer_base.cc:TransferBase::processRule")

p("C79", "The instructions of apertium-postchunk mean what the documentation says, and word-bound blanks follow the lemmas",
  "In a rule, position 0 means the head of the chunk and 1, 2, ... its words; in a macro, 0 the same and 1, 2, ... the arguments. A clip is that part of the word, empty if there is no such word; lu-count is the number of words; `<b/>` is the next blank of the chunk, or a space. A lexical unit is written between `^` and `$`, a multiword with `+` between its units, empty ones not at all; before it stands, in a rule with one word, the word-bound blank of that word, and in a rule with several, those of the words whose lemma is clipped and of the values of the variables used, in this order. A variable keeps the word-bound blanks of what was assigned to it. Assignments change the part or variable and nothing else. After a macro the positions mean what they did before; a call with a position that is no word does nothing. Blanks that are not single spaces are all written, in order.",
  "all rules, words, variables, blanks, word-bound blanks", "ranges over all expressions, all nested instructions and macros, and all words with their word-bound blanks",
  "apertium/postchunk.cc:Postchunk::evalCachedString", "apertium/postchunk.cc:Postchunk::processLu", "apertium/postchunk.cc:Postchunk::processMlu", "apertium/postchunk.cc:Postchunk::processOut", "apertium/postchunk.cc:Postchunk::processLet", "apertium/postchunk.cc:Postchunk::processModifyCase", "apertium/postchunk.cc:Postchunk::processCallMacro", "apertium/postchunk.cc:Postchunk::applyRule", "apertium/transfer_base.cc:TransferBase::processAppend")

p("C80", "The tagger definition is read as it is written",
  "From a tagger definition (.tsx) in which every tag is defined once and every label used is one of a tag, the tagger gets: the seven fixed tags and then the defined ones, numbered in the order of the file; as its open class the tags not marked closed; the forbidden pairs, the enforced successors, the preferences and the entries to discard on ambiguity as they are written, in order; and the patterns of each tag. Line breaks, comments, other attributes and the two ways to write an empty element make no difference. A tag that is defined twice is rejected; the reading ends for every file, and in no case is a tag number given out that is not a tag.",
  "all tagger definitions and all ways to write them; all sequences of XML nodes", "ranges over all files; the reader is a state machine over XML nodes whose loops end only at the right end tags",
  "apertium/tsx_reader.cc:TSXReader::parse", "apertium/tsx_reader.cc:TSXReader::procTagset", "apertium/tsx_reader.cc:TSXReader::procDefLabel", "apertium/tsx_reader.cc:TSXReader::procDefMult", "apertium/tsx_reader.cc:TSXReader::procLabelSequence", "apertium/tsx_reader.cc:TSXReader::procForbid", "apertium/tsx_reader.cc:TSXReader::procEnforce", "apertium/tsx_reader.cc:TSXReader::procPreferences", "apertium/tsx_reader.cc:TSXReader::procDiscardOnAmbiguity", "apertium/tsx_reader.cc:TSXReader::newTagIndex", "apertium/xml_reader.cc:XMLReader::step")

p("C81", "apertium-tagger does what its usage says",
  "For every line of the usage of apertium-tagger, its options in any order, in the short or the long form, and the files in the order of the usage make the program read, train and write exactly those files with that algorithm and number of iterations, with just the flags that were given. Two functions, two algorithms or the same flag twice are an error, and nothing is read or written. A number of iterations is a decimal number that fits, and anything else is an error.",
  "all command lines: all orders and spellings of the options, all files, all numbers", "ranges over all permutations of options and all numerals; the result depends on memory that was not initialised",
  "apertium/tagger.cc:apertium_tagger::apertium_tagger", "apertium/tagger.cc:apertium_tagger::get_file_arguments", "apertium/tagger.cc:apertium_tagger::parse_unsigned_long_int", "apertium/tagger.cc:apertium_tagger::s_FILE_Tagger", "apertium/shell_utils.cc:expect_file_arguments", "apertium/tagger_flags.cc:basic_Tagger::Flags")

p("C82", "Training touches only the tagger, at the end, and from its inputs only",
  "Wherever apertium-tagger is stopped or fails, no file has changed but the one that is the output of that line of its usage; a training that fails, or is stopped before it is finished, leaves that one as it was too. Training depends on the definition, the dictionary and the corpus only. Retraining goes on from the tagger that is given.",
  "all lines of the usage, all contents of all files, all points at which the program is stopped, all behaviours of the algorithms", "ranges over all crash points and all contents of files",
  "apertium/tagger.cc:apertium_tagger::r_FILE_Tagger", "apertium/tagger.cc:apertium_tagger::s_FILE_Tagger", "apertium/tagger.cc:apertium_tagger::t_FILE_Tagger", "apertium/file_tagger.cc:FILE_Tagger::read_dictionary", "apertium/hmm.cc:HMM::post_ambg_class_scan", "apertium/tagger_data_hmm.cc:TaggerDataHMM::setProbabilities")

p("C83", "An .mtx file is read as it is written",
  "From a feature file (.mtx) the perceptron tagger gets, at every place of every sentence, exactly the features that the file says: if the condition for all features holds, for each template, in the order of the file, the keys made of one choice for each of its outputs, unless one of its conditions fails. Names of strings, macros and variables mean what they were defined to be; a macro means its expression. Line breaks, comments, other attributes and the way in which an empty element is written make no difference. The tagger definition for coarse tags is looked for relative to the file.",
  "all feature files and all ways to write them; all sentences and places in them", "ranges over all nestings of expressions; the reader is a recursive descent that allocates numbers for strings, sets, variables and macros while it emits code, and the code is run on a stack machine",
  "apertium/mtx_reader.cc:MTXReader::parse", "apertium/mtx_reader.cc:MTXReader::procDefMacro", "apertium/mtx_reader.cc:MTXReader::procForEach", "apertium/mtx_reader.cc:MTXReader::tryProcVar", "apertium/mtx_reader.cc:MTXReader::procBoolExpr", "apertium/mtx_reader.cc:MTXReader::procStrExpr", "apertium/mtx_reader.cc:MTXReader::procFeat", "apertium/mtx_reader.cc:MTXReader::procCoarseTags", "apertium/perceptron_spec.cc:PerceptronSpec::get_features")

p("C84", "A file of transfer rules is read as it is written, by compiler and interpreter alike",
  "A .t1x, .t2x or .t3x file written by its document type, with any text and comments between its elements, is accepted by apertium-preprocess-transfer exactly if no macro is defined twice, its parts are regular expressions that compile, its patterns name categories that are defined and not empty, and the parts its rules clip are defined. Then the compiled file, read back completely by the transfer programs, gives each variable the value of its last definition, each part the regular expression of its last definition or the builtin one, each list the items of all its definitions (also in lower case); calling a macro runs the element that defines that name, and a match of the pattern of the n-th rule runs the action of the n-th rule.",
  "all files of rules and all ways to write them, with any content of macros and actions; all formats of the automaton", "ranges over all documents: the compiler numbers rules and macros over a stream of XML nodes, the transfer programs over a tree, and only the numbers are in the compiled file",
  "apertium/trx_reader.cc:TRXReader::parse", "apertium/trx_reader.cc:TRXReader::procDefCats", "apertium/trx_reader.cc:TRXReader::procDefAttrs", "apertium/trx_reader.cc:TRXReader::procDefVars", "apertium/trx_reader.cc:TRXReader::procDefLists", "apertium/trx_reader.cc:TRXReader::procDefMacros", "apertium/trx_reader.cc:TRXReader::procRules", "apertium/transfer_data.cc:TransferData::write", "apertium/transfer_base.cc:TransferBase::read", "apertium/transfer_base.cc:TransferBase::collectRules", "apertium/transfer_base.cc:TransferBase::collectMacros")

p("C85", "A name that is used in the rules and not defined is reported",
  "If a file of transfer rules is accepted by apertium-preprocess-transfer, every category, part, macro, variable and list that it uses is defined in it, and no macro is defined twice.",
  "all files of rules written by the document type", "ranges over all documents, with uses nested at any depth",
  "apertium/trx_reader.cc:TRXReader::procRules", "apertium/trx_reader.cc:TRXReader::checkClip", "apertium/trx_reader.cc:TRXReader::procDefMacros", "apertium/transfer.cc:Transfer::processCallMacro")

p("C86", "A LaTeX document that is not translated comes back as it was",
  "A LaTeX document that goes through apertium-prelatex and, untranslated, through apertium-postlatex-raw comes back character by character, with accented letters that were written with commands as letters. Text, commands, environments, options, formulas, comments, verbatim text, escapes and German shorthands may follow each other in any order.",
  "all LaTeX documents", "ranges over all documents: the two scanners take the longest match over sixty and forty rules, each of which could swallow what another one was meant for, and keep a start condition and globals",
  "apertium/apertium-prelatex.l", "apertium/apertium-postlatex-raw.l", "apertium/latex_accentsmap.cc:AccentsMap::init_camap", "apertium/latex_accentsmap.cc:AccentsMap::get")

p("C87", "Adapting a Word document moves words between runs, and changes nothing else",
  "apertium-adapt-docx ends on every document. The boundary between two text runs of a paragraph that lies inside a word (between letters, at a hyphen between letters, at the dot of l·l) is moved to the first place behind it that does not, and the boundaries that are not inside a word stay where they are; so afterwards no word is divided between runs, and adapting once more changes nothing. The document reads the same: the same characters and objects, in the same order. It is printed in one line.",
  "all XML documents: any nesting, any runs and texts, any set of letters", "ranges over all documents; the boundaries are moved in place by a loop with two indices over a vector that it changes, and whole runs can be absorbed",
  "apertium/adapt_docx.cc:findBoundary", "apertium/adapt_docx.cc:adjust", "apertium/adapt_docx.cc:process", "apertium/adapt_docx.cc:TextRun", "apertium/adapt_docx.cc:Paragraph", "apertium/adapt_docx.cc:printNl2spc")

p("C88", "Filtering a corpus keeps one word of every ambiguity class",
  "apertium-filter-ambiguity writes, for every set of coarse tags that a word of the corpus has, one line with the first word that has it: its form and one of its own analyses for each of its tags. Read back, the output has just these classes, each once, in the order in which they first appear; filtering it again changes nothing; and a tagger trained on it has the same ambiguity classes, with the same numbers, as one trained on the corpus.",
  "all corpora, all tagger definitions (as any recogniser of coarse tags and any preference rules)", "ranges over all corpora and tagger definitions, and relates what is written to what is read",
  "apertium/hmm.cc:HMM::filter_ambiguity_classes", "apertium/tagger_word.cc:TaggerWord::outputOriginal", "apertium/apertium_filter_ambiguity.cc:main", "apertium/file_morpho_stream.cc:FileMorphoStream::get_next_word", "apertium/tagger_utils.cc:tagger_utils::scan_for_ambg_classes")

p("C89", "Rules written in XML mean what the document type says",
  "The three transfer programs interpret the XML tree of a rule file. What a rule does depends only on what its elements say by the names of elements and attributes: in whatever order attributes are written, whatever comments and spaces stand between elements, and whatever the program has run before; the memory of decoded elements that the program fills as it goes never changes what an element does. So on every input the program with the file writes what the rules written down in the file say.",
  "all rule files valid for the document type, all inputs, all sequences of rules and macro calls before, all states of the memory of decoded elements that they can leave", "the memory is filled by earlier rules and read by later ones, with one element decoded by two functions with different defaults (as a value and as the left side of an assignment); it must hold for all histories and all files",
  "apertium/transfer_base.cc:TransferBase::evalString", "apertium/transfer.cc:Transfer::evalCachedString", "apertium/transfer.cc:Transfer::processLet", "apertium/transfer.cc:Transfer::processCallMacro", "apertium/interchunk.cc:Interchunk::evalCachedString", "apertium/interchunk.cc:Interchunk::processLet", "apertium/postchunk.cc:Postchunk::evalCachedString", "apertium/postchunk.cc:Postchunk::processLet", "apertium/transfer_instr.h:TransferInstr")


p("C90", "Prefer and discard rules fit the words with their tags",
  "The pattern of a prefer rule or of a discard rule in a tagger definition, a sequence of tag names and stars, fits exactly the analyses in whose tags the sequence occurs, each star standing for one or more tags, whatever the analyses seen before. Among the analyses of a word that have the same coarse tag the one kept is one that a prefer rule fits, if there is one; a discard rule removes exactly the analyses it fits, unless it would remove them all.",
  "every list of prefer and discard patterns, every word with any number of analyses, every history of earlier words and patterns (the compiled expressions are cached)",
  "The pattern is rewritten into a regular expression by repeated text substitution and then searched unanchored; whether the expression says what the pattern says must hold for every pattern and every analysis.",
  "apertium/tagger_word.cc:TaggerWord::match", "apertium/tagger_word.cc:TaggerWord::add_tag", "apertium/tagger_word.cc:TaggerWord::discardOnAmbiguity", "apertium/tsx_reader.cc:TSXReader::procPreferences", "apertium/tsx_reader.cc:TSXReader::procDiscardOnAmbiguity", "apertium/apertium_re.cc:ApertiumRE::match")


p("C91", "LaTeX comes back with its letters as commands",
  "A LaTeX document that is given to apertium-prelatex and from there, nothing being translated, to apertium-postlatex comes back with the same commands, environments, parameters, formulas, comments, verbatim text and number signs, and with every accented letter written as the command for it. A document that writes its letters with these commands comes back exactly as it was, and a document in ASCII comes back in ASCII.",
  "every LaTeX document, of any length and with any sequence of commands",
  "The two programs are scanners with several dozen rules of which the longest match wins; that no rule takes something it should not, in any context, must hold for every document.",
  "apertium/apertium-postlatex.l", "apertium/apertium-prelatex.l", "apertium/latex_accentsmap.cc:AccentsMap::get", "apertium/latex_accentsmap.cc:AccentsMap::init_camap")


p("C92", "New rules for a tagger are the rules of the new definition",
  "apertium-tagger-apply-new-rules, given the parameters of a tagger and a tagger definition with the same tags, writes parameters in which the forbid, enforce and prefer rules, by the names of the tags, are those of the definition. After every tag the probabilities of the next tags are a distribution in which those that the new rules exclude are as good as zero and the others keep their proportions. Everything else of the tagger, its emission probabilities, tags, classes, patterns and discards, stays as it was, to the last bit.",
  "all taggers that can be written to a file, all tagger definitions, all ways to write the definition in XML, machines of either byte order",
  "relates two files with a whole matrix of probabilities for every tagger and every definition",
  "apertium/apertium_tagger_apply_new_rules.cc:main", "apertium/hmm.cc:HMM::apply_rules", "apertium/tagger_data.cc:TaggerData::copy", "apertium/tagger_data_hmm.cc:TaggerDataHMM::TaggerDataHMM", "apertium/tsx_reader.cc:TSXReader::read")


p("C93", "The words of a corpus and their tags, one on each line",
  "apertium-tagger-readwords writes one line for every word of the corpus, in the order of the corpus, with the form of the word and the names of all its coarse tags, up to the number of words asked for. With the parameters of a tagger it reports just the words that the tagger has no ambiguity class for, every time that one comes.",
  "all corpora of well-formed lexical units, all tagger definitions (as any recogniser of coarse tags and any names of tags), all collections of ambiguity classes, any number of words asked for",
  "the collection of classes grows while it is asked, so that whether a class counts as unknown must not depend on what was asked before, for every corpus",
  "apertium/apertium_tagger_readwords.cc:readwords", "apertium/tagger_word.cc:TaggerWord::get_string_tags", "apertium/collection.cc:Collection::operator[]", "apertium/file_morpho_stream.cc:FileMorphoStream::get_next_word")


p("C94", "The perceptron and the HMM tagger agree on coarse tags",
  "With the same tagger definition the perceptron tagger gives an analysis the coarse tag that the HMM tagger gives it, and the ambiguity set of a word is made of the coarse tags of its analyses. What was asked before, and whether the cache has been emptied since, makes no difference.",
  "all recognisers of coarse tags, all morphemes, all histories of questions and emptied caches",
  "two traversals of the same recogniser that treat unknown tags and dead states in different ways, and a cache whose content depends on the history",
  "apertium/tagger_data_percep_coarse_tags.cc:TaggerDataPercepCoarseTags::coarsen", "apertium/perceptron_spec.cc:PerceptronSpec::coarsen", "apertium/perceptron_spec.cc:PerceptronSpec::clearCache", "apertium/file_morpho_stream.cc:FileMorphoStream::lrlmClassify")


p("C95", "How similar two sentences are for the aligner",
  "For apertium-tmxbuild two sentences are the more similar the more words they have in common, relative to the shorter of them; ten words more count if they agree in their numbers (some in common, and five times as many as only one of them has). Neither the order of the words nor which text comes first makes a difference; a sentence without numbers is as similar to itself as any other is to it; a paragraph mark is only like another. For the texts that are aligned at all, no other alignment is better by these similarities and by the lengths of the sentences.",
  "all sentences, all pairs of texts (up to 200000 sentences on the left, neither of them more than five times as long as the other)",
  "the score comes from a merge of two sorted lists with repeated words, compared with the common words of two bags, for all sentences; the best alignment is over all alignments",
  "apertium/tmx_book_to_matrix.cc:specializedIntersectionSize", "apertium/tmx_book_to_matrix.cc:scoreByIdentity", "apertium/tmx_book_to_matrix.cc:sentenceListsToAlignMatrixIdentity", "apertium/tmx_book_to_matrix.cc:characterLength", "apertium/tmx_translate.cc:sortNormalizeSentences", "apertium/tmx_aligner_tool.cc:alignerToolWithObjects")



p("C96", "apertium-tmxbuild from two texts to the pairs of aligned sentences",
  "apertium-tmxbuild splits both texts into sentences, hands them to the aligner in a file of one sentence per line, and reads the aligned lines back: each sentence reaches the aligner as its words, in order, and the pairs from which the translation units are written contain the words of both texts, complete and in order, one space between two words, from the point on where both texts have begun.",
  "all pairs of texts, all languages and options of the aligner that are not cautious, all choices it makes among equally good alignments",
  "four passes (splitting, writing lines, reading words, reading tab-separated lines) over files, where a lost word or a shifted line can come from any of them and for texts of any length",
  "apertium/tmx_builder.cc:TMXBuilder::splitAndMove", "apertium/tmx_builder.cc:TMXBuilder::outputTU", "apertium/tmx_dictionary.cc:read", "apertium/tmx_dictionary.cc:SentenceList::readNoIds", "apertium/tmx_dictionary.cc:eatwhite", "apertium/tmx_aligner_tool.cc:alignerToolWithFilenames", "apertium/tmx_aligner_tool.cc:alignerToolWithObjects", "apertium/tmx_serialize_impl.h:operator<<")



p("C97", "Feature vectors are vectors",
  "After any sequence of additions and subtractions (of features or of vectors) a feature vector gives each feature the sum of what was added to it; the product of two vectors is the sum of the products of their values, hence symmetric and linear, and the score of a word is the sum of the weights of its features, each as often as it occurs: the product of the weights with the vector that the tagger prints to explain the score.",
  "all vectors, all sequences of operations, all lists of features with any strings",
  "a vector is a map ordered by a comparison of its own, the product walks through two maps with another one, and entries appear in an order that depends on the history",
  "apertium/feature_vec.cc:CompareFeatureKey::operator()", "apertium/feature_vec.cc:FeatureVec::operator*", "apertium/feature_vec.cc:FeatureVec::operator+=", "apertium/feature_vec.cc:FeatureVec::operator-=", "apertium/feature_vec.cc:FeatureVec::init", "apertium/perceptron_tagger.cc:PerceptronTagger::tagSentence", "apertium/apertium_perceptron_trace.cc:perceptron_trace")



p("C98", "The file of apertium-tmxbuild is well-formed XML",
  "What apertium-tmxbuild writes is a well-formed XML document: a tmx element with a header that names the languages, and a body with a tu element for each unit, with a tuv element and a segment for each language; read as XML, the segments are the text of the sentences, with an empty ph element for each placeholder.",
  "all pairs of aligned lines, all versions and codes of languages",
  "well-formedness is a property of the whole file, for any number of units and any text; cutting a placeholder in half anywhere makes the file unreadable",
  "apertium/tmx_builder.cc:TMXBuilder::generateTMX", "apertium/tmx_builder.cc:TMXBuilder::outputTU", "apertium/tmx_builder.cc:TMXBuilder::printTU", "apertium/tmx_builder.cc:TMXBuilder::xmlize", "apertium/tmx_builder.cc:TMXBuilder::filter")



p("C99", "apertium-transfer does what its usage message says",
  "apertium-transfer reads the files that are named on its command line as the usage message says (rules, preprocessed rules, bilingual dictionary unless -b or -n is given, input, output), translates with the settings that the options mean, in whatever order they are given, and shows the usage message for -h, for unknown options and for too few or too many files. It translates only if all the files are there; an existing output file is not touched otherwise.",
  "all options in any order and number, all names of files, all ways in which files can be missing",
  "any number of options in any order, with three different meanings of the same positions",
  "apertium/apertium_transfer.cc:main", "apertium/apertium_transfer.cc:message", "apertium/apertium_transfer.cc:testfile", "apertium/transfer.cc:Transfer::setPreBilingual", "apertium/transfer.cc:Transfer::setUseBilingual", "apertium/transfer.h:Transfer")



p("C100", "The user's preferences reach every request and leave no trace in the translation",
  "With AP_SETVAR set, each request that the programs of the mode are given (with null flush: each text between NULs, the last one too) begins with one command that holds the preferences, and is otherwise the user's; in these, a negated preference (key=-a:b) is replaced with the list of the other options of the file of preferences, in their order, and the rest stays as it is. The commands are taken out again: if the mode answers the requests one by one the user gets exactly the answers, and a mode that changes nothing gives back the text. Without preferences nothing is changed.",
  "all lists of preferences, all files of preferences, all texts with any number of requests of any number of lines, all modes",
  "any stream of requests with any text, and any list of options",
  "apertium/apertium-header.sh:setvar_wrap", "apertium/apertium-header.sh:setvar_unwrap", "apertium/apertium-header.sh:apply_invert_setvars", "apertium/apertium-header.sh:invert_setvar", "apertium/apertium-header.sh:run_mode_wblank")



p("C101", "The apertium command does what its command line asks for",
  "The apertium command takes its options one by one or together, with arguments in the same word or the next, with the direction and the files before or after them; the last -f, -d, -m and -o count, and the other options as often as they are given. It translates in that format, with marks of unknown words unless -u is given, from the input to the output that is named; it translates only if the input can be read, the mode is there and the memory can be compiled. -l lists the modes, -V gives the version, and unknown options or a wrong number of files give the usage message.",
  "all options in any order, number and way of writing, all files before or after them, all states of the files and modes",
  "any number of options in any order, joined in any way",
  "apertium/apertium-header.sh:message", "apertium/apertium-header.sh:getopts", "apertium/apertium-header.sh:FORMAT")


if __name__ == "__main__":
    out = os.path.join(os.path.dirname(__file__), "..", "properties.jsonl")
    with open(out, "w") as f:
        for d in P:
            f.write(json.dumps(d, ensure_ascii=False) + "\n")
    print(len(P))
