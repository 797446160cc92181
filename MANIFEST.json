{
 "claims": [
  {
   "property": "C01",
   "status": "proved",
   "theorems": [
    "Verif.Post.C01_collapses",
    "Verif.Post.C01_unique",
    "Verif.Post.C01_no_double_space",
    "Verif.Post.C01_keeps_others",
    "Verif.Post.C01_idempotent"
   ],
   "note": "all texts"
  },
  {
   "property": "C02",
   "status": "proved",
   "theorems": [
    "Verif.Pre.C02_copies_outside_words",
    "Verif.Pre.C02_complete_stream"
   ],
   "note": "all well-formed streams, with and without surface forms, followed by anything"
  },
  {
   "property": "C03",
   "status": "proved",
   "theorems": [
    "Verif.Pre.C03_C04_split",
    "Verif.Pre.C03_C04_split_surface"
   ],
   "note": "delimiters do not occur inside lemmas, tags, queues (see C36 for escaped ones)"
  },
  {
   "property": "C04",
   "status": "proved",
   "theorems": [
    "Verif.Pre.C03_C04_split",
    "Verif.Pre.C03_C04_split_surface"
   ],
   "note": "same theorem: the word-bound blank is part of the separator written between parts"
  },
  {
   "property": "C05",
   "status": "partial",
   "theorems": [
    "Verif.Pre.C05_terminates_partial",
    "Verif.Pre.C05_diverges_only_in_surface_skip_partial",
    "Verif.Pre.C05_violation"
   ],
   "note": "the code violates it: with surface forms a truncated word makes the skipping loop run for ever (pretransfer.cc:81); proved without that option"
  },
  {
   "property": "C06",
   "status": "proved",
   "theorems": [
    "Verif.Clean.C06_exact",
    "Verif.Clean.C06_units",
    "Verif.Clean.C06_stray_caret"
   ],
   "note": "all well-formed streams, all option settings"
  },
  {
   "property": "C07",
   "status": "proved",
   "theorems": [
    "Verif.Detach.C07_closes_once",
    "Verif.Detach.C07_count"
   ],
   "note": "all well-formed streams"
  },
  {
   "property": "C08",
   "status": "partial",
   "theorems": [
    "Verif.Attach.C08_distributes_partial",
    "Verif.Attach.C08_padding",
    "Verif.Attach.C08_violation"
   ],
   "note": "proved for word-bound blanks without escapes; the code violates it for escaped characters, which are written unescaped (wblank-attach.cc:155)"
  },
  {
   "property": "C09",
   "status": "partial",
   "theorems": [
    "Verif.Attach.C09_null_flush_partial",
    "Verif.Attach.C09_violation_ub",
    "Verif.Attach.C09_violation_blank"
   ],
   "note": "the code violates it: at NUL wb_stack and in_wblank are not reset (wblank-attach.cc:80-99); proved when the first request is complete"
  },
  {
   "property": "C10",
   "status": "proved",
   "theorems": [
    "Verif.Post.C10_posttransfer_null_flush",
    "Verif.Pre.C10_pretransfer_null_flush",
    "Verif.Detach.C10_detach_null_flush",
    "Verif.Detach.C10_detach_null_flush_wf"
   ],
   "note": ""
  },
  {
   "property": "C36",
   "status": "partial",
   "theorems": [
    "Verif.Pre.C36_violation",
    "Verif.Pre.C36_escapes_partial"
   ],
   "note": "the code violates it: an escaped $ ends the word"
  },
  {
   "property": "C37",
   "status": "partial",
   "theorems": [
    "Verif.Detach.C37_detach_keeps_partial",
    "Verif.Detach.C37_violation"
   ],
   "note": "the code violates it for a blank left open at the end of the input"
  },
  {
   "property": "C11",
   "status": "proved",
   "theorems": [
    "Verif.Transfer.C11_conditions"
   ],
   "note": "all conditions as the DTD allows (one child in <not>), all states"
  },
  {
   "property": "C12",
   "status": "proved",
   "theorems": [
    "Verif.Transfer.C12_choose_first",
    "Verif.Transfer.C12_choose_otherwise",
    "Verif.Transfer.C12_choose_none",
    "Verif.Transfer.C12_transfer_choose"
   ],
   "note": "for every interpreter (transfer, interchunk, postchunk share the code)"
  },
  {
   "property": "C13",
   "status": "proved",
   "theorems": [
    "Verif.Transfer.C13_let_clip",
    "Verif.Transfer.C13_read_after_write",
    "Verif.Transfer.C13_write_frame",
    "Verif.Transfer.C13_write_absent",
    "Verif.Transfer.C13_write_same",
    "Verif.Transfer.C13_word_frame",
    "Verif.Transfer.C13_queue_kept",
    "Verif.Transfer.C13_read_after_write_needs_stability",
    "Verif.Transfer.C13_no_side_not_read_back"
   ],
   "note": "the attribute must recognise the new value at the same place (shown to be necessary); side given (without it reading and writing use different sides)"
  },
  {
   "property": "C14",
   "status": "proved",
   "theorems": [
    "Verif.Transfer.C14_combine",
    "Verif.Transfer.C14_empty",
    "Verif.Transfer.C14_assoc"
   ],
   "note": "blanks whose pieces are escaped text"
  },
  {
   "property": "C15",
   "status": "proved",
   "theorems": [
    "Verif.Transfer.C15_blanks"
   ],
   "note": "all rules, macros at any depth"
  },
  {
   "property": "C16",
   "status": "partial",
   "theorems": [
    "Verif.Transfer.C16_longest_match_partial",
    "Verif.Transfer.C16_total_partial",
    "Verif.Transfer.C16_reject_after_shift_violation",
    "Verif.Transfer.C16_shift_after_shift_violation"
   ],
   "note": "the loop shared by transfer, interchunk and postchunk, for every pattern automaton and every rule action; the code violates it when a rule is rejected right after a rule rejected with shifting (prev_last is stale: words are lost), the other cases are proved"
  },
  {
   "property": "C17",
   "status": "partial",
   "theorems": [
    "Verif.Regex.C17_exact_partial",
    "Verif.Regex.C17_search_partial",
    "Verif.Regex.C17_hyphen_violation",
    "Verif.Regex.C17_bar_violation"
   ],
   "note": "proved for items without regular-expression characters other than + * ?; the code violates it for the others (only + * ? . are escaped, transfer_regex.cc:55,73): a hyphen can become a range, a bar an alternative"
  },
  {
   "property": "C38",
   "status": "partial",
   "theorems": [
    "Verif.Transfer.C38_lu_wblank",
    "Verif.Transfer.C38_single_word",
    "Verif.Transfer.C38_mlu_loses_wblank_violation"
   ],
   "note": "proved for <lu>; the code violates it for a variable assigned after an <mlu>, which leaves in_lu set (transfer.cc:337-378)"
  },
  {
   "property": "C39",
   "status": "partial",
   "theorems": [
    "Verif.Transfer.C39_reject",
    "Verif.Transfer.C39_reject_silent_partial",
    "Verif.Transfer.C39_reject_writes_blanks_violation"
   ],
   "note": "the code violates it: the blanks that are not single spaces are written on rejection and read again; proved when all are single spaces"
  },
  {
   "property": "C40",
   "status": "proved",
   "theorems": [
    "Verif.Transfer.C40_let_var",
    "Verif.Transfer.C40_macro",
    "Verif.Transfer.C40_words_fixed"
   ],
   "note": "expressions that build no lexical unit; macros called with the declared number of arguments"
  },
  {
   "property": "C18",
   "status": "partial",
   "theorems": [
    "Verif.Chunk.C18_split",
    "Verif.Chunk.C18_word",
    "Verif.Chunk.C18_set",
    "Verif.Chunk.C18_read",
    "Verif.Chunk.C18_read_back",
    "Verif.Chunk.C18_lemma_without_tags_violation",
    "Verif.Chunk.C18_bracket_violation"
   ],
   "note": "see the violation theorems for where the code departs from the property"
  },
  {
   "property": "C41",
   "status": "partial",
   "theorems": [
    "Verif.Chunk.C41_unfold_partial",
    "Verif.Chunk.C41_last_blank_violation"
   ],
   "note": "proved for chunks that do not end with a plain character of a blank: the code loses it (endChunk is size()-2, postchunk.cc:821)"
  },
  {
   "property": "C42",
   "status": "partial",
   "theorems": [
    "Verif.Chunk.C42_rule_sees_partial",
    "Verif.Chunk.C42_leading_blank_violation",
    "Verif.Chunk.C42_escaped_bracket_violation"
   ],
   "note": "proved for chunks that begin with a word; the code moves a leading blank to the end of the blank that follows the chunk, and misreads a word-bound blank that ends with an escaped ]"
  },
  {
   "property": "C43",
   "status": "partial",
   "theorems": [
    "Verif.Token.C43_chunk_tokens",
    "Verif.Token.C43_transfer_tokens_partial",
    "Verif.Token.C43_wblank_escape_violation",
    "Verif.Token.C43_unclosed_superblank_violation",
    "Verif.Token.C43_unclosed_chunk_violation",
    "Verif.Token.C43_unclosed_wblank_violation"
   ],
   "note": "proved for interchunk and postchunk; for transfer if no word-bound blank begins with an escaped character (there the code is wrong); an unclosed superblank, chunk or word with word-bound blank makes the programs loop for ever"
  },
  {
   "property": "C44",
   "status": "partial",
   "theorems": [
    "Verif.Chunk.C44_default_partial",
    "Verif.Chunk.C44_rule_violation"
   ],
   "note": "holds for the default action; the code ignores the option in splitWordsAndBlanks, which rules use"
  },
  {
   "property": "C45",
   "status": "proved",
   "theorems": [
    "Verif.Token.C45_interchunk_identity"
   ],
   "note": "for every pattern automaton that accepts nothing"
  },
  {
   "property": "C46",
   "status": "partial",
   "theorems": [
    "Verif.Token.C46_null_flush_partial",
    "Verif.Token.C46_inword_violation",
    "Verif.Whole.C46_transfer_violation",
    "Verif.Inter.C46_interchunk_partial",
    "Verif.Postchunk.C46_postchunk_violation"
   ],
   "note": "interchunk and postchunk, parts that are well-formed streams; the code keeps inword after a part that ends inside a word; apertium-transfer and apertium-postchunk keep the word-bound blanks of variables from one part to the next"
  },
  {
   "property": "C47",
   "status": "proved",
   "theorems": [
    "Verif.Bil.C47_rule",
    "Verif.Bil.C47_default",
    "Verif.Bil.C47_default_lu",
    "Verif.Bil.C47_pattern"
   ],
   "note": "words in which the special characters are escaped"
  },
  {
   "property": "C48",
   "status": "partial",
   "theorems": [
    "Verif.Bil.C48_no_rules",
    "Verif.Bil.C48_digit_tag_violation",
    "Verif.Bil.C48_brace_violation"
   ],
   "note": "proved for texts with special characters escaped and no tag beginning with a digit; violated by tags that begin with a digit"
  },
  {
   "property": "C19",
   "status": "proved",
   "theorems": [
    "Verif.Tagger.C19_viterbi",
    "Verif.Tagger.C19_stream",
    "Verif.Tagger.C19_whole_text",
    "Verif.Tagger.C19_classes"
   ],
   "note": "for every ordered type of weights whose product is monotone (this covers rounded non-negative doubles without NaN); whole texts for exact arithmetic"
  },
  {
   "property": "C20",
   "status": "partial",
   "theorems": [
    "Verif.Tagger.C20_stream",
    "Verif.Tagger.C20_once",
    "Verif.Tagger.C20_words",
    "Verif.Tagger.C20_ambiguous_end_violation",
    "Verif.Tagger.C20_multiword_violation",
    "Verif.Tagger.C20_no_analysis_violation",
    "Verif.Tagger.C20_truncated_violation",
    "Verif.Tagger.C20_undo_violation"
   ],
   "note": "from text to text for every well-formed stream without multiwords; with multiwords the code can write parts of two analyses or use a deleted word; units without analyses and truncated input lose text"
  },
  {
   "property": "C23",
   "status": "partial",
   "theorems": [
    "Verif.Tagger.C23_discard_partial",
    "Verif.Tagger.C23_safe",
    "Verif.Tagger.C23_lost_violation",
    "Verif.Tagger.C23_length_violation"
   ],
   "note": "proved if the analysis of the lowest tag does not match; otherwise the code loses the next analysis"
  },
  {
   "property": "C24",
   "status": "proved",
   "theorems": [
    "Verif.Tagger.C24_collection"
   ],
   "note": "any sequence of insertions"
  },
  {
   "property": "C25",
   "status": "partial",
   "theorems": [
    "Verif.Tagger.C25_similar_partial",
    "Verif.Tagger.C25_history_bound",
    "Verif.Tagger.C25_necessary",
    "Verif.Tagger.C25_history_violation",
    "Verif.Tagger.C25_open_class_violation",
    "Verif.Tagger.C25_superset_violation"
   ],
   "note": "the code violates it: the search writes through a reference to the open class (tagger_utils.cc:151), so the answer depends on earlier queries"
  },
  {
   "property": "C21",
   "status": "partial",
   "theorems": [
    "Verif.Tagger.Train.C21_rules_partial",
    "Verif.Tagger.Train.C21_never_zero_violation",
    "Verif.Tagger.Train.C21_certain_violation"
   ],
   "note": "the code writes 1e-10 and then normalises, so a forbidden transition never gets zero and can even become certain; proved: the exact values, rows sum to one"
  },
  {
   "property": "C22",
   "status": "partial",
   "theorems": [
    "Verif.Tagger.Lsw.C22_valid_partial",
    "Verif.Tagger.Lsw.C22_sound",
    "Verif.Tagger.Lsw.C22_repeated_violation"
   ],
   "note": "proved for triples whose first two tags differ; for a repeated tag the code does not check the second bigram against the enforce rule (else if, lswpost.cc:213)"
  },
  {
   "property": "C49",
   "status": "proved",
   "theorems": [
    "Verif.Tagger.Train.C49_kupiec",
    "Verif.Tagger.Train.C49_supervised"
   ],
   "note": "exact rational arithmetic instead of double"
  },
  {
   "property": "C50",
   "status": "proved",
   "theorems": [
    "Verif.Tagger.Lsw.C50_parameters",
    "Verif.Tagger.Lsw.C50_refused",
    "Verif.Tagger.Lsw.C50_mass"
   ],
   "note": "exact rational arithmetic instead of double"
  },
  {
   "property": "C51",
   "status": "partial",
   "theorems": [
    "Verif.Tagger.Lsw.C51_words_partial",
    "Verif.Tagger.Lsw.C51_tail_violation",
    "Verif.Tagger.Lsw.C51_no_words_violation",
    "Verif.Tagger.Lsw.C51_flush_violation",
    "Verif.Tagger.Lsw.C51_empty_request_violation",
    "Verif.Tagger.Lsw.C51_unknown_violation"
   ],
   "note": "proved for all words but the last; the code never writes the last word (which carries the text at the end), reads the first tag of an empty set for unknown words, and delays text past the NUL in null-flush mode"
  },
  {
   "property": "C52",
   "status": "proved",
   "theorems": [
    "Verif.Tagger.Train.C52_counts",
    "Verif.Tagger.Train.C52_parameters",
    "Verif.Tagger.Train.C52_relative",
    "Verif.Tagger.Train.C52_iterations",
    "Verif.Tagger.Train.C52_impossible_violation"
   ],
   "note": "exact rational arithmetic instead of double, for positive parameters (which initialisation gives and training preserves); transitions never expected get 1e-10 before normalisation"
  },
  {
   "property": "C26",
   "status": "partial",
   "theorems": [
    "Verif.Unigram.C26_counts",
    "Verif.Unigram.C26_keys",
    "Verif.Unigram.C26_unknown",
    "Verif.Unigram.C26_permutation",
    "Verif.Unigram.C26_totals",
    "Verif.Unigram.C26_types",
    "Verif.Unigram.C26_choice_model1",
    "Verif.Unigram.C26_score_model2",
    "Verif.Unigram.C26_score_model3",
    "Verif.Unigram.C26_choice_violation",
    "Verif.Unigram.C26_nul_stops"
   ],
   "note": "counters, totals and types are exact for all three models and the choice of model 1 does not depend on the order of the corpus; the coefficient does, so models 2 and 3 (with the added ones) may choose differently for the same corpus in another order; exact arithmetic"
  },
  {
   "property": "C27",
   "status": "proved",
   "theorems": [
    "Verif.Unigram.C27_best",
    "Verif.Unigram.C27_output",
    "Verif.Unigram.C27_first_keeps_all"
   ],
   "note": "any score whose comparison is that of numbers (no NaN)"
  },
  {
   "property": "C28",
   "status": "partial",
   "theorems": [
    "Verif.Unigram.C28_roundtrip",
    "Verif.Unigram.C28_reader_sound",
    "Verif.Unigram.C28_reprint",
    "Verif.Unigram.C28_reprint_violation"
   ],
   "note": "printing and parsing gives the analysis back for all well-formed analyses; parsing and printing gives the text back for lemmas without #; the code moves a lemma queue before the tags"
  },
  {
   "property": "C30",
   "status": "partial",
   "theorems": [
    "Verif.Unigram.C30_sentence_partial",
    "Verif.Unigram.C30_unigram_violation",
    "Verif.Unigram.C30_sentence_violation"
   ],
   "note": "the unigram tagger never writes a NUL; the sentence tagger loses those directly after a lexical unit and copies the others"
  },
  {
   "property": "C53",
   "status": "proved",
   "theorems": [
    "Verif.Unigram.C53_unigram_stream"
   ],
   "note": "NUL is lost, see C30"
  },
  {
   "property": "C54",
   "status": "proved",
   "theorems": [
    "Verif.Unigram.C54_sentence_stream",
    "Verif.Unigram.C54_units",
    "Verif.Unigram.C54_boundary"
   ],
   "note": "NUL see C30; tagSentence is any function that gives one of the analyses of each unit"
  },
  {
   "property": "C55",
   "status": "partial",
   "theorems": [
    "Verif.Unigram.C55_aligned",
    "Verif.Unigram.C55_strict",
    "Verif.Unigram.C55_skip_aligned",
    "Verif.Unigram.C55_skip_violation"
   ],
   "note": "with --skip-on-error the code throws away the sentence before when the streams differ at the first token of a sentence, and uses an uninitialised pointer at the first token of the streams"
  },
  {
   "property": "C33",
   "status": "partial",
   "theorems": [
    "Verif.Mode.C33_idempotent_partial",
    "Verif.Mode.C33_stages",
    "Verif.Mode.C33_kept",
    "Verif.Mode.C33_modern",
    "Verif.Mode.C33_option",
    "Verif.Mode.C33_option_violation",
    "Verif.Mode.C33_lines_violation"
   ],
   "note": "idempotent for every text without -z; with -z the code is not (the helpers get the option only the second time); lines are joined without a separator"
  },
  {
   "property": "C32",
   "status": "partial",
   "theorems": [
    "Verif.Percep.C32_average_partial",
    "Verif.Percep.C32_keys",
    "Verif.Percep.C32_zero_violation",
    "Verif.Percep.C32_shared_feature_violation"
   ],
   "note": "exact means of the running weights when no mean is zero; the code erases an entry whose total is zero and then increments the erased iterator, which is undefined and happens whenever the right and the chosen analyses of the only updates share a feature"
  },
  {
   "property": "C56",
   "status": "partial",
   "theorems": [
    "Verif.Percep.C56_choice",
    "Verif.Percep.C56_stream",
    "Verif.Percep.C56_optimal_partial",
    "Verif.Percep.C56_narrow_violation",
    "Verif.Percep.C56_single_violation",
    "Verif.Percep.C56_zero_beam_violation"
   ],
   "note": "the score that is optimal leaves out the features of words with one analysis (C56_single_violation); exact arithmetic; a beam width of zero is accepted and undefined"
  },
  {
   "property": "C57",
   "status": "partial",
   "theorems": [
    "Verif.Percep.C57_sentence",
    "Verif.Percep.C57_updates",
    "Verif.Percep.C57_converges",
    "Verif.Percep.exGold_converges",
    "Verif.Percep.C57_unavailable",
    "Verif.Percep.C57_shared_violation",
    "Verif.Percep.C57_zero_iterations_violation",
    "Verif.Percep.C57_forced_violation"
   ],
   "note": "everything but the average holds of the code (exact arithmetic, sentences whose right analyses are available); averages see C32; a word whose only analysis is not the right one makes an empty update"
  },
  {
   "property": "C58",
   "status": "partial",
   "theorems": [
    "Verif.VM.C58_features_partial",
    "Verif.VM.C58_template_partial",
    "Verif.VM.C58_adjust",
    "Verif.VM.C58_clamp",
    "Verif.VM.C58_wordoid",
    "Verif.VM.C58_token",
    "Verif.VM.C58_violation_or",
    "Verif.VM.C58_violation_lost",
    "Verif.VM.C58_violation_and",
    "Verif.VM.C58_violation_order",
    "Verif.VM.C58_violation_loop",
    "Verif.VM.C58_violation_empty",
    "Verif.VM.C58_violation_join",
    "Verif.VM.C58_violation_global"
   ],
   "note": "compiled templates run to the features of the specification wherever the code is right (Clean); the code is wrong for true operands of or and false operands of and after the first, loops around out, empty loops, leading empty strings of join, macros in the global condition, and for compilers that evaluate operands left to right"
  },
  {
   "property": "C29",
   "status": "partial",
   "theorems": [
    "Verif.Serial.C29_hmm",
    "Verif.Serial.C29_hmm_again",
    "Verif.Serial.C29_hmm_tags",
    "Verif.Serial.C29_hmm_writes",
    "Verif.Serial.C29_lsw",
    "Verif.Serial.C29_lsw_writes",
    "Verif.Serial.C29_unigram",
    "Verif.Serial.C29_perceptron",
    "Verif.Serial.C29_training_discard_violation",
    "Verif.Serial.C29_read_twice_violation",
    "Verif.Serial.C29_concatenation_violation"
   ],
   "note": "all four taggers come back as written, and the HMM tags as before; not kept: emission probabilities outside the ambiguity class, LSW cells up to ZERO, the discards of a definition when training, the old-format end of data when something follows; how lttoolbox writes numbers, strings and patterns is assumed"
  },
  {
   "property": "C31",
   "status": "partial",
   "theorems": [
    "Verif.Caps.C31_extract_exact_partial",
    "Verif.Caps.C31_extract_total",
    "Verif.Caps.C31_lemmaPrefix_spec",
    "Verif.Caps.C31_upToLastTags_unique",
    "Verif.Caps.C31_extract_unanalysed_violation",
    "Verif.Caps.C31_extract_close_violation"
   ],
   "note": "holds when every unit has an analysis and no [[/]] stands directly before a unit; a unit without analysis loses its text, a closing mark is merged into the next unit's word-bound blank; lttoolbox's reading functions and getcase are assumed"
  },
  {
   "property": "C59",
   "status": "partial",
   "theorems": [
    "Verif.Caps.C59_restore_text_partial",
    "Verif.Caps.C59_restore_total",
    "Verif.Caps.C59_restore_loose_violation",
    "Verif.Caps.C59_restore_pieces_violation",
    "Verif.Caps.C59_restore_empty_violation"
   ],
   "note": "holds when the piece about capitals is the last of its word-bound blank; word-bound blanks not directly before a unit, pieces after c:, and the blank of a unit with an empty surface form are lost; the rule automaton is a parameter"
  },
  {
   "property": "C60",
   "status": "partial",
   "theorems": [
    "Verif.Caps.C60_restore_choice_partial",
    "Verif.Caps.C60_restore_choice_end_violation"
   ],
   "note": "holds for sections that end with NUL directly after a word; at the end of the input (or before NUL after a blank) the matches at the last word are counted again for the words before; integer weights"
  },
  {
   "property": "C61",
   "status": "proved",
   "theorems": [
    "Verif.Caps.C61_wblank_roundtrip"
   ],
   "note": "word-bound blanks that are not empty and have no piece about capitals before extraction"
  },
  {
   "property": "C34",
   "status": "partial",
   "theorems": [
    "Verif.Help.C34_words",
    "Verif.Help.C34_width",
    "Verif.Help.C34_fits",
    "Verif.Help.C34_table",
    "Verif.Help.C34_terminates_partial",
    "Verif.Help.C34_table_terminates_partial",
    "Verif.Help.C34_long_word_violation",
    "Verif.Help.C34_margin_violation"
   ],
   "note": "words, width and table hold whenever the function returns, for margins from 1 to 79; it returns if every word fits behind the margin; it loops for ever on a word of 80 or more characters, and with margin 0 on a text with a line break"
  },
  {
   "property": "C35",
   "status": "partial",
   "theorems": [
    "Verif.Tmx.C35_optimal_partial",
    "Verif.Tmx.C35_tool_partial",
    "Verif.Tmx.C35_two_to_one_violation",
    "Verif.Tmx.C35_exchange_violation",
    "Verif.Tmx.C35_start_violation"
   ],
   "note": "optimal among alignments without two-for-one pieces: the value of such a piece is computed but never stored, so it is never chosen; the trail leaves out the sentences before the first aligned one; exact arithmetic, scores up to 1e6, books up to 3e6 sentences (int overflow of the code for books above 46340 sentences is outside the model)"
  },
  {
   "property": "C62",
   "status": "partial",
   "theorems": [
    "Verif.Tmx.C62_text_partial",
    "Verif.Tmx.C62_bisent_partial",
    "Verif.Tmx.C62_start_violation",
    "Verif.Tmx.C62_cautious_violation",
    "Verif.Tmx.C62_empty_violation"
   ],
   "note": "complete without -cautious, if both books have sentences, but for the sentences of one book before the first aligned one; -cautious loses the end; an empty book (accepted if the other has at most four sentences) is undefined behaviour; the scores and the choice of spaceOutBySentenceLength are parameters"
  },
  {
   "property": "C63",
   "status": "partial",
   "theorems": [
    "Verif.Tmx.C63_segment_partial",
    "Verif.Tmx.C63_lines_partial",
    "Verif.Tmx.C63_filter",
    "Verif.Tmx.C63_unit_violation",
    "Verif.Tmx.C63_placeholder_violation"
   ],
   "note": "the segment text is right unless a placeholder stands outside a space at an end; but the condition in printTU is inverted: every unit written has an empty first segment; the columns start with the line end or tab before them, so that a placeholder at the start of a column is always cut"
  },
  {
   "property": "C64",
   "status": "partial",
   "theorems": [
    "Verif.Tmx.C64_sentences_partial",
    "Verif.Tmx.C64_last_violation",
    "Verif.Tmx.C64_stop_violation",
    "Verif.Tmx.C64_blank_violation"
   ],
   "note": "sentences are right up to the last end of a sentence before the end of the text; the rest is lost; a blank that does not end aborts the program"
  },
  {
   "property": "C65",
   "status": "partial",
   "theorems": [
    "Verif.Format.C65_round_trip",
    "Verif.Format.C65_round_trip_entities",
    "Verif.Format.C65_round_trip_nodot",
    "Verif.Format.C65_round_trip_eoh",
    "Verif.Format.C65_nodot_violation",
    "Verif.Format.C65_eoh_violation",
    "Verif.Format.C65_eoh_dot_violation",
    "Verif.Format.C65_utf8_violation",
    "Verif.Format.C65_nul_violation",
    "Verif.Format.C65_entity_violation"
   ],
   "note": "holds for UTF-8 without NUL bytes, without -n and -o (with -n if the document has no full stop, with -o if the format has no header rules); otherwise full stops are lost, marks stay, or the rest of the text is lost; entities marked as preferred are never put back"
  },
  {
   "property": "C66",
   "status": "proved",
   "theorems": [
    "Verif.Format.C66_well_formed",
    "Verif.Format.C66_reformat",
    "Verif.Format.C66_missing_file"
   ],
   "note": "for UTF-8 without NUL bytes; flex's longest match, first rule, and to_ustring on UTF-8 are assumed"
  },
  {
   "property": "C67",
   "status": "proved",
   "theorems": [
    "Verif.Format.C67_txt_stream"
   ],
   "note": "for UTF-8 without NUL bytes"
  },
  {
   "property": "C68",
   "status": "proved",
   "theorems": [
    "Verif.Format.C68_markup"
   ],
   "note": "for UTF-8 without NUL bytes; flex's longest match, first rule, and to_ustring on UTF-8 are assumed"
  },
  {
   "property": "C69",
   "status": "partial",
   "theorems": [
    "Verif.GenModes.C69_mode",
    "Verif.GenModes.C69_file",
    "Verif.GenModes.C69_read",
    "Verif.GenModes.C69_modes",
    "Verif.GenModes.C69_steps",
    "Verif.GenModes.C69_suffixes",
    "Verif.GenModes.C69_trace",
    "Verif.GenModes.C69_untrimmed",
    "Verif.GenModes.C69_twice_violation",
    "Verif.GenModes.C69_empty_violation"
   ],
   "note": "the set of modes and their contents are exact, for files in which no name begins with @ (names are XML IDs); but the trace option is added twice in the untrimmed modes, and an empty attribute dereferences a null pointer"
  },
  {
   "property": "C70",
   "status": "partial",
   "theorems": [
    "Verif.GenModes.C70_text",
    "Verif.GenModes.C70_install",
    "Verif.GenModes.C70_dev",
    "Verif.GenModes.C70_once",
    "Verif.GenModes.C70_quote_violation",
    "Verif.GenModes.C70_local_violation",
    "Verif.GenModes.C70_same_name_violation"
   ],
   "note": "holds for programs and arguments without characters that have a meaning in a shell and paths without a single quote, which the program does not escape; -l without -f is taken for an installation; fs::absolute and / are parameters"
  },
  {
   "property": "C71",
   "status": "partial",
   "theorems": [
    "Verif.Mult.C71_tokens",
    "Verif.Mult.C71_acceptions_partial",
    "Verif.Mult.C71_choices",
    "Verif.Mult.C71_number",
    "Verif.Mult.C71_program_partial",
    "Verif.Mult.C71_second_violation",
    "Verif.Mult.C71_bar_violation",
    "Verif.Mult.C71_open_violation",
    "Verif.Mult.C71_backslash_violation"
   ],
   "note": "holds if no blank or translation has [|] in it and blanks are closed; a default translation that is the second of three or more is not put first; a [|] blank makes one variant look like several; an unclosed blank loops for ever; a translation that ends in a backslash is undefined behaviour; the automaton and the dictionary are parameters"
  },
  {
   "property": "C72",
   "status": "partial",
   "theorems": [
    "Verif.Pattern.C72_category_partial",
    "Verif.Pattern.C72_rule_partial",
    "Verif.Pattern.C72_banned_partial",
    "Verif.Pattern.C72_compiles",
    "Verif.Pattern.C72_automaton_partial",
    "Verif.Pattern.C72_longest_partial",
    "Verif.Pattern.C72_word",
    "Verif.Pattern.C72_chunk",
    "Verif.Pattern.C72_chunk_name",
    "Verif.Pattern.C72_mult",
    "Verif.Pattern.C72_escaped_violation",
    "Verif.Pattern.C72_uppercase_violation",
    "Verif.Pattern.C72_stars_violation",
    "Verif.Pattern.C72_lemma_violation",
    "Verif.Pattern.C72_dollar_violation",
    "Verif.Pattern.C72_rejected_violation"
   ],
   "note": "holds for items without backslash, $ and neighbouring stars, and words without an escaped $ or a tag <ANY_CHAR>; an escaped character or a capital letter in a lemma matches nothing; *.* is *; an item with a lemma and no tags matches every word without tags; an escaped $ in a word is taken for its end; a rule that rejects the words hides later rules that match them; of lttoolbox it is assumed that minimize keeps what is accepted (shown to be possible)"
  },
  {
   "property": "C73",
   "status": "partial",
   "theorems": [
    "Verif.Crx.C73_compiles",
    "Verif.Crx.C73_matches_partial",
    "Verif.Crx.C73_weights",
    "Verif.Crx.C73_bounded",
    "Verif.Crx.C73_restore_partial",
    "Verif.Crx.C73_text",
    "Verif.Crx.C73_tags_violation",
    "Verif.Crx.C73_slash_violation",
    "Verif.Crx.C73_plane_violation",
    "Verif.Crx.C73_noform_violation",
    "Verif.Crx.C73_boundary_violation"
   ],
   "note": "holds for rules with characters of the basic multilingual plane, no / in lemma or surface form, no neighbouring stars and no ? or + after * or + in the tags, and words without an escaped / and without the tags that the program uses itself; the election is stated for rules that match in one way at a word; otherwise *.? is *, an escaped / is taken for the end of the form, a lemma outside the plane never matches, a unit without analysis is matched by no rule without lemma, and a unit with the tag <$> makes the program write out of bounds; of lttoolbox it is assumed that minimize keeps what is accepted and leaves no empty labels and useless edges (shown to be possible)"
  },
  {
   "property": "C74",
   "status": "partial",
   "theorems": [
    "Verif.Whole.C74_transfer_partial",
    "Verif.Whole.C74_unique_partial",
    "Verif.Whole.C74_position_violation",
    "Verif.Whole.C74_untranslated_violation"
   ],
   "note": "an equivalence, for inputs in which special characters are escaped (and no source has an escaped $), rules without reject-current-rule whose positions are those of their patterns, and categories as in C72; a rule with a position after its pattern gets words that were read ahead for longer patterns, a unit without translation is dropped; rejection is covered by C16 for any automaton"
  },
  {
   "property": "C75",
   "status": "partial",
   "theorems": [
    "Verif.Inter.C75_interchunk_partial",
    "Verif.Inter.C75_unique_partial",
    "Verif.Inter.C75_content",
    "Verif.Inter.C75_memory",
    "Verif.Inter.C75_position_violation",
    "Verif.Inter.C75_no_content_violation",
    "Verif.Inter.C75_lemma_violation",
    "Verif.Inter.C75_unchecked_violation",
    "Verif.Inter.C75_lu_violation"
   ],
   "note": "an equivalence, for inputs in which special characters are escaped (and no head has an escaped $), rules without reject-current-rule whose positions are those of their patterns, and categories as in C72; the last two sentences without these conditions; <let>, <modify-case> and <call-macro> with positions outside the pattern are undefined behaviour, and the content of a word without braces ends the program"
  },
  {
   "property": "C76",
   "status": "partial",
   "theorems": [
    "Verif.Postchunk.C76_postchunk_partial",
    "Verif.Postchunk.C76_unique",
    "Verif.Postchunk.C76_memory",
    "Verif.Postchunk.C76_no_braces_violation",
    "Verif.Postchunk.C76_two_chunks_violation",
    "Verif.Postchunk.C76_macro_violation",
    "Verif.Postchunk.C76_empty_chunk_violation",
    "Verif.Postchunk.C76_assign_violation"
   ],
   "note": "an equivalence, for inputs in which special characters are escaped and whose chunks begin with a word and do not end with a bare character (C41, C42), rules without reject-current-rule whose pattern is one category (as the DTD demands); words without braces are dropped, a macro without parameters ends the program, assignments to positions outside the chunk are undefined behaviour"
  },
  {
   "property": "C77",
   "status": "partial",
   "theorems": [
    "Verif.Parts.C77_read_partial",
    "Verif.Parts.C77_assign_partial",
    "Verif.Parts.C77_chunk_partial",
    "Verif.Parts.C77_attr_partial",
    "Verif.Parts.C77_escape_violation",
    "Verif.Parts.C77_hash_violation",
    "Verif.Parts.C77_brace_violation"
   ],
   "note": "for words without `<` in the lemma and with `#` only before an invariable part: escaped `<` and `#` are taken for the real ones, and `#` elsewhere is in neither half of the lemma; chunk parts for chunks with at least one tag and no brace in the name; the engine (leftmost match, alternatives and repetitions in order) stands for ICU's"
  },
  {
   "property": "C78",
   "status": "proved",
   "theorems": [
    "Verif.Inter.C78_value",
    "Verif.Inter.C78_out",
    "Verif.Inter.C78_let_var",
    "Verif.Inter.C78_let_part",
    "Verif.Inter.C78_modify_case",
    "Verif.Inter.C78_append",
    "Verif.Inter.C78_start",
    "Verif.Inter.C78_macro",
    "Verif.Inter.C78_blanks"
   ],
   "note": "laws of the interpreter that C75 uses; parts are any regular expressions (C77 says which the predefined ones are); macros called with the declared number of arguments; assignments to positions outside the chunks and content of words without braces are the violations of C75"
  },
  {
   "property": "C79",
   "status": "partial",
   "theorems": [
    "Verif.Postchunk.C79_value",
    "Verif.Postchunk.C79_lu",
    "Verif.Postchunk.C79_mlu",
    "Verif.Postchunk.C79_out",
    "Verif.Postchunk.C79_let_var_partial",
    "Verif.Postchunk.C79_append_partial",
    "Verif.Postchunk.C79_let_part",
    "Verif.Postchunk.C79_modify_case",
    "Verif.Postchunk.C79_macro",
    "Verif.Postchunk.C79_macro_outside",
    "Verif.Postchunk.C79_start",
    "Verif.Postchunk.C79_blanks",
    "Verif.Postchunk.C79_var_to_var_violation"
   ],
   "note": "laws of the interpreter that C76 uses, for expressions without lexical units nested in others; word-bound blanks are lists of pieces; a variable assigned from another variable loses the word-bound blanks (violation)"
  },
  {
   "property": "C80",
   "status": "partial",
   "theorems": [
    "Verif.Tsx.C80_read_partial",
    "Verif.Tsx.C80_duplicate",
    "Verif.Tsx.C80_terminates",
    "Verif.Tsx.C80_numbers",
    "Verif.Tsx.C80_unknown_label_violation",
    "Verif.Tsx.C80_forward_label_violation",
    "Verif.Tsx.C80_order_violation",
    "Verif.Tsx.C80_unknown_section_violation",
    "Verif.Tsx.C80_empty_label_violation",
    "Verif.Tsx.C80_label_item_end_violation",
    "Verif.Tsx.C80_reread_violation"
   ],
   "note": "the file as the sequence of nodes that libxml2 reports; C80_read_partial leaves out the long form of label-item in a label-sequence, which is rejected, and says what a reader keeps that has read another file; labels that no definition has are silently the tag LPAR; C80_terminates and C80_numbers for any sequence of nodes"
  },
  {
   "property": "C81",
   "status": "partial",
   "theorems": [
    "Verif.Driver.C81_run_partial",
    "Verif.Driver.C81_reject_partial",
    "Verif.Driver.C81_only_partial",
    "Verif.Driver.C81_iterations",
    "Verif.Driver.C81_negative_violation",
    "Verif.Driver.C81_help_violation",
    "Verif.Driver.C81_unigram_violation",
    "Verif.Driver.C81_abort_violation",
    "Verif.Driver.C81_flags_violation"
   ],
   "note": "options as getopt_long reports them; the partial theorems assume that the two flags that the program does not initialise happen to be off; -h, -u 12, -1 iterations and -x with -r or -t do something else than an error or what the usage says"
  },
  {
   "property": "C82",
   "status": "partial",
   "theorems": [
    "Verif.Driver.C82_only_target",
    "Verif.Driver.C82_training_last",
    "Verif.Driver.C82_train_inputs",
    "Verif.Driver.C82_retrain_violation",
    "Verif.Driver.C82_retrain_stdin_violation",
    "Verif.Driver.C82_retrain_zero_violation"
   ],
   "note": "the algorithms are any functions of their inputs; holds but for retraining, which throws the probabilities away, reads standard input for a dictionary and starts from memory that was not initialised; and the old tagger is lost if the program is stopped while it writes"
  },
  {
   "property": "C83",
   "status": "partial",
   "theorems": [
    "Verif.Mtx.C83_read_partial",
    "Verif.Mtx.C83_beam_violation",
    "Verif.Mtx.C83_set_violation",
    "Verif.Mtx.C83_loop_violation",
    "Verif.Mtx.C83_strlen_violation",
    "Verif.Mtx.C83_toklen_violation",
    "Verif.Mtx.C83_inst_violation",
    "Verif.Mtx.C83_argument_violation",
    "Verif.Mtx.C83_arguments_violation",
    "Verif.Mtx.C83_call_violation",
    "Verif.Mtx.C83_out_violation",
    "Verif.Mtx.C83_slots_violation",
    "Verif.Mtx.C83_slice_violation",
    "Verif.Mtx.C83_number_violation",
    "Verif.Mtx.C83_scope_violation",
    "Verif.Mtx.C83_condition_violation"
   ],
   "note": "the file as the sequence of nodes that libxml2 reports, at the end of an element with the attributes of its start; C83_read_partial: for the files that the grammar Writes describes (macros without arguments and not called in each other or in the condition, all loops of a file over lists of the same kind, no beam-width, def-set, strlen, arrlen, toklen, inst), with numbers that fit a byte, at places where C58 holds; the violations show what is wrong outside of it"
  },
  {
   "property": "C84",
   "status": "proved",
   "theorems": [
    "Verif.Trx.C84_read",
    "Verif.Trx.C84_rules",
    "Verif.Trx.C84_compiled"
   ],
   "note": "the file as a tree, seen by the compiler as the nodes that libxml2 reports and by the transfer programs as elements; lttoolbox (splitting of tags, minimisation, the format of the automaton) and ICU (whether an expression compiles) are parameters; what the patterns match is C72, what the expressions of parts match is C17 and C77; strings are written as characters instead of UTF-16 units; files that are not written by the document type (sections in another order, a rule without action) are outside"
  },
  {
   "property": "C85",
   "status": "partial",
   "theorems": [
    "Verif.Trx.C85_reported_partial",
    "Verif.Trx.C85_first_violation",
    "Verif.Trx.C85_undefined_violation"
   ],
   "note": "holds for categories in patterns, parts in rules and macros defined twice; the code does not check the names of macros, variables and lists, nor the parts in macros, and a call of a macro that is not defined runs the first macro of the file"
  },
  {
   "property": "C86",
   "status": "partial",
   "theorems": [
    "Verif.Latex.C86_roundtrip_partial",
    "Verif.Latex.C86_same_partial",
    "Verif.Latex.C86_accent_violation",
    "Verif.Latex.C86_dotless_violation",
    "Verif.Latex.C86_hash_violation",
    "Verif.Latex.C86_environment_violation",
    "Verif.Latex.C86_verbatim_violation",
    "Verif.Latex.C86_option_violation"
   ],
   "note": "the rules of the flex files are transcribed by hand, and flex (longest match, first rule, default rule) is modelled; characters instead of bytes; holds for every sequence of the pieces of Spec; what is left out there is not restored by the code, see the violations"
  },
  {
   "property": "C87",
   "status": "partial",
   "theorems": [
    "Verif.Docx.C87_total",
    "Verif.Docx.C87_boundary",
    "Verif.Docx.C87_ends",
    "Verif.Docx.C87_legal",
    "Verif.Docx.C87_unchanged",
    "Verif.Docx.C87_twice",
    "Verif.Docx.C87_document",
    "Verif.Docx.C87_print",
    "Verif.Docx.C87_content_partial",
    "Verif.Docx.C87_tab_violation",
    "Verif.Docx.C87_hyperlink_violation",
    "Verif.Docx.C87_break_violation",
    "Verif.Docx.C87_comment_violation",
    "Verif.Docx.C87_cdata_violation",
    "Verif.Docx.C87_dangling_violation"
   ],
   "note": "the tree as libxml2 gives it; texts as characters instead of bytes, which the positions allow; the letters are any set without hyphen, middle dot and U+0000; all but C87_content_partial hold for all documents (C87_legal, C87_document and C87_twice: for runs with at most one text node); what is read is kept only if nothing visible stands inside or between the text runs of a paragraph"
  },
  {
   "property": "C88",
   "status": "partial",
   "theorems": [
    "Verif.Tagger.C88_output",
    "Verif.Tagger.C88_classes",
    "Verif.Tagger.C88_idempotent",
    "Verif.Tagger.C88_training",
    "Verif.Tagger.C88_empty_violation",
    "Verif.Tagger.C88_nul_violation",
    "Verif.Tagger.C88_discard_violation"
   ],
   "note": "for corpora without multiwords cut at +, well-formed as in C20, without NUL, without empty analyses and without discard rules: empty analyses, NULs and discard rules give wrong output (violations)"
  },
  {
   "property": "C89",
   "status": "proved",
   "theorems": [
    "Verif.Dom.T.C89_expr",
    "Verif.Dom.T.C89_rule",
    "Verif.Dom.T.C89_history",
    "Verif.Dom.T.C89_program",
    "Verif.Dom.I.C89_inter_expr",
    "Verif.Dom.I.C89_inter_rule",
    "Verif.Dom.I.C89_inter_history",
    "Verif.Dom.I.C89_inter_program",
    "Verif.Dom.P.C89_post_expr",
    "Verif.Dom.P.C89_post_rule",
    "Verif.Dom.P.C89_post_history",
    "Verif.Dom.P.C89_post_program",
    "Verif.Dom.C89_valid",
    "Verif.Dom.C89_macro",
    "Verif.Dom.C89_meaning",
    "Verif.Dom.C89_file",
    "Verif.Dom.C89_inter_file",
    "Verif.Dom.C89_post_file"
   ],
   "note": "against the abstract rules that C51, C75 and the other claims about rules are stated for (absExpr, absInstr and so on say which one an element denotes, for the elements of the document type); libxml2 is taken to keep a text node for every attribute value, also an empty one; atoi without overflow"
  },
  {
   "property": "C90",
   "status": "partial",
   "theorems": [
    "Verif.Glob.C90_expression",
    "Verif.Glob.C90_attribute",
    "Verif.Glob.C90_match_partial",
    "Verif.Glob.C90_table",
    "Verif.Glob.C90_prefer_partial",
    "Verif.Glob.C90_discard_partial",
    "Verif.Glob.C90_meta_violation",
    "Verif.Glob.C90_lemma_violation"
   ],
   "note": "for tags whose names are plain characters (the code puts them into the expression unescaped, so a full stop, a plus sign or a parenthesis in a name changes what the pattern fits: C90_meta_violation) and lexical forms without angle brackets in the lemma (C90_lemma_violation); ICU's matching without case is taken as comparison after folding character by character, with a fold that keeps angle brackets; prefer and discard for the case that not every analysis is discarded"
  },
  {
   "property": "C91",
   "status": "partial",
   "theorems": [
    "Verif.Tex.C91_roundtrip_partial",
    "Verif.Tex.C91_same_partial",
    "Verif.Tex.C91_ascii_partial",
    "Verif.Tex.C91_violation"
   ],
   "note": "for the documents described in Latex/Spec.lean and number signs, as for C86; the rest is not only missing but lost by the code: the command of ł runs into the letters behind it, a character beyond sixteen bits becomes another one, letters of verbatim text become commands (C91_violation)"
  },
  {
   "property": "C92",
   "status": "partial",
   "theorems": [
    "Verif.NewRules.C92_rules_partial",
    "Verif.NewRules.C92_units",
    "Verif.NewRules.C92_order_violation",
    "Verif.NewRules.C92_discard_violation"
   ],
   "note": "for a definition with the same tags in the same order, and with exact arithmetic rounded once; with the same tags in another order the code uses the numbers of the new definition for the states of the old tagger (C92_order_violation), and the discards of the tagger are lost because TaggerData::copy does not copy them (C92_discard_violation); probability zero is 1e-10 before the division (see C21)"
  },
  {
   "property": "C93",
   "status": "partial",
   "theorems": [
    "Verif.ReadWords.C93_words_partial",
    "Verif.ReadWords.C93_unknown_violation"
   ],
   "note": "for corpora of well-formed lexical units (as C20) and definitions without discard rules (with --tsxfile there never are any, as they are lost on the way); an unknown word is reported even if all is known that the tagger needs (C93_unknown_violation)"
  },
  {
   "property": "C94",
   "status": "partial",
   "theorems": [
    "Verif.Coarse.C94_agree_partial",
    "Verif.Coarse.C94_exact",
    "Verif.Coarse.C94_cache",
    "Verif.Coarse.C94_ambgset_partial",
    "Verif.Coarse.C94_unknown_violation",
    "Verif.Coarse.C94_escape_violation"
   ],
   "note": "for a lemma without '<', an analysis without a lemma queue, and tags that the patterns name; C94_exact says what is found with other tags: they count as if they were not there, while the HMM tagger finds no coarse tag (C94_unknown_violation); an escaped '<' in the lemma begins a tag for the HMM tagger only (C94_escape_violation). The ambiguity sets are proved for analyses of one morpheme; the cache for all histories"
  },
  {
   "property": "C95",
   "status": "partial",
   "theorems": [
    "Verif.TmxSim.C95_score_partial",
    "Verif.TmxSim.C95_exact",
    "Verif.TmxSim.C95_number",
    "Verif.TmxSim.C95_order",
    "Verif.TmxSim.C95_symmetric",
    "Verif.TmxSim.C95_bounds",
    "Verif.TmxSim.C95_self",
    "Verif.TmxSim.C95_matrix",
    "Verif.TmxSim.C95_tool_partial",
    "Verif.TmxSim.C95_numbers_violation"
   ],
   "note": "the similarity is proved for sentences with a word that comes after all numbers in the order of bytes, and C95_exact says what it is otherwise: numbers that come after all words of the other sentence are not compared (C95_numbers_violation); order, symmetry, bounds and the comparison with itself hold for all sentences. The best alignment as in C35: the trail begins at the last point where one of the texts has not begun; exact arithmetic"
  },
  {
   "property": "C96",
   "status": "partial",
   "theorems": [
    "Verif.TmxBuild.C96_lines_partial",
    "Verif.TmxBuild.C96_program_partial",
    "Verif.TmxBuild.C96_words",
    "Verif.TmxBuild.C96_white_partial",
    "Verif.TmxBuild.C96_newline_violation",
    "Verif.TmxBuild.C96_blank_violation"
   ],
   "note": "C96_words and C96_white_partial are for texts with any white space: the aligner gets all their words, in order, and the pairs contain them; that each sentence is one for the aligner is proved for texts without white space other than spaces and tabs (a newline within a sentence makes two sentences of it, one between two sentences an empty one: C96_newline_violation; a line of blanks only vanishes: C96_blank_violation), below the limits of size of the aligner, and without the cautious mode; one text may lose sentences before the point where the trail begins (as in C35); what is then written from the pairs is C63"
  },
  {
   "property": "C97",
   "status": "partial",
   "theorems": [
    "Verif.FeatVec.C97_order",
    "Verif.FeatVec.C97_run",
    "Verif.FeatVec.C97_score",
    "Verif.FeatVec.C97_dot",
    "Verif.FeatVec.C97_linear",
    "Verif.FeatVec.C97_symmetric",
    "Verif.FeatVec.C97_unary",
    "Verif.FeatVec.C97_make",
    "Verif.FeatVec.C97_explain_partial",
    "Verif.FeatVec.C97_repeated_violation"
   ],
   "note": "everything for all vectors and histories, in exact arithmetic, but for the vector that is printed: it is the one of the score only if no feature of the word occurs twice (C97_explain_partial); a feature that occurs twice counts twice but is printed with the value 1 (C97_repeated_violation; C97_make says what the printed vector is)"
  },
  {
   "property": "C98",
   "status": "partial",
   "theorems": [
    "Verif.TmxFile.C98_file",
    "Verif.TmxFile.C98_document_partial",
    "Verif.TmxFile.C98_placeholder_violation",
    "Verif.TmxFile.C98_language_violation"
   ],
   "note": "C98_file is for all files of segments that are well-formed; C98_document_partial is for the columns whose segments C63_segment_partial describes (placeholders not outside white space at an end, characters that XML has). Two placeholders with a space at the end of a column make a file that is no XML (C98_placeholder_violation), and so do codes of languages with characters that are special in XML (C98_language_violation). The first segment of every unit is empty (C63_unit_violation)"
  },
  {
   "property": "C99",
   "status": "partial",
   "theorems": [
    "Verif.TransferCli.C99_options",
    "Verif.TransferCli.C99_usage",
    "Verif.TransferCli.C99_order",
    "Verif.TransferCli.C99_help",
    "Verif.TransferCli.C99_count_partial",
    "Verif.TransferCli.C99_all",
    "Verif.TransferCli.C99_extra_violation",
    "Verif.TransferCli.C99_output_violation"
   ],
   "note": "everything but: with -b or -n five files are taken for those of a translation with a dictionary (C99_extra_violation), and the output file is opened, hence emptied, before the other files are known to be there (C99_output_violation). The parsing of the arguments into options and files is that of getopt_long; abbreviated long options are not modelled"
  },
  {
   "property": "C100",
   "status": "partial",
   "theorems": [
    "Verif.Setvar.C100_every_request",
    "Verif.Setvar.C100_unset",
    "Verif.Setvar.C100_no_trace_partial",
    "Verif.Setvar.C100_mode_partial",
    "Verif.Setvar.C100_preferences_partial",
    "Verif.Setvar.C100_no_file_partial",
    "Verif.Setvar.C100_run_partial",
    "Verif.Setvar.C100_greater_violation",
    "Verif.Setvar.C100_own_command_violation",
    "Verif.Setvar.C100_none_left_violation",
    "Verif.Setvar.C100_equals_violation"
   ],
   "note": "everything but: a preference with > in it is not taken out of the translation (C100_greater_violation), the user's own commands are taken out with it (C100_own_command_violation), a value that ends in = loses it (C100_equals_violation), and if no option is left the preference is given without a value (C100_none_left_violation). Preferences with newlines, or whose first begins with -, are left out of C100_preferences_partial (echo and $(...) of the shell change them). What xmllint finds in the file of preferences is given"
  },
  {
   "property": "C101",
   "status": "partial",
   "theorems": [
    "Verif.ApertiumCli.C101_options",
    "Verif.ApertiumCli.C101_translate_partial",
    "Verif.ApertiumCli.C101_count",
    "Verif.ApertiumCli.C101_list",
    "Verif.ApertiumCli.C101_unknown",
    "Verif.ApertiumCli.C101_version",
    "Verif.ApertiumCli.C101_only",
    "Verif.ApertiumCli.C101_direction_violation",
    "Verif.ApertiumCli.C101_unknown_format_violation",
    "Verif.ApertiumCli.C101_late_option_violation"
   ],
   "note": "everything but: without -o no direction at all is given to lt-tmxcomp, although the usage message says that the direction of the translation is (C101_direction_violation); -u has no effect with a format that is not known (C101_unknown_format_violation); an option after files that are after options is taken for a file (C101_late_option_violation). What the functions translate_... do is not modelled"
  }
 ]
}