#!/usr/bin/env python3
"""Writes MANIFEST.json from the table below."""
import json, os
C = []
def c(prop, status, theorems, note):
    C.append(dict(property=prop, status=status, theorems=theorems, note=note))

c("C01", "proved", ["Verif.Post.C01_collapses", "Verif.Post.C01_unique", "Verif.Post.C01_no_double_space", "Verif.Post.C01_keeps_others", "Verif.Post.C01_idempotent"],
  "all texts")
c("C02", "proved", ["Verif.Pre.C02_copies_outside_words", "Verif.Pre.C02_complete_stream"], "all well-formed streams, with and without surface forms, followed by anything")
c("C03", "proved", ["Verif.Pre.C03_C04_split", "Verif.Pre.C03_C04_split_surface"], "delimiters do not occur inside lemmas, tags, queues (see C36 for escaped ones)")
c("C04", "proved", ["Verif.Pre.C03_C04_split", "Verif.Pre.C03_C04_split_surface"], "same theorem: the word-bound blank is part of the separator written between parts")
c("C05", "partial", ["Verif.Pre.C05_terminates_partial", "Verif.Pre.C05_diverges_only_in_surface_skip_partial", "Verif.Pre.C05_violation"],
  "the code violates it: with surface forms a truncated word makes the skipping loop run for ever (pretransfer.cc:81); proved without that option")
c("C06", "proved", ["Verif.Clean.C06_exact", "Verif.Clean.C06_units", "Verif.Clean.C06_stray_caret"], "all well-formed streams, all option settings")
c("C07", "proved", ["Verif.Detach.C07_closes_once", "Verif.Detach.C07_count"], "all well-formed streams")
c("C08", "partial", ["Verif.Attach.C08_distributes_partial", "Verif.Attach.C08_padding", "Verif.Attach.C08_violation"],
  "proved for word-bound blanks without escapes; the code violates it for escaped characters, which are written unescaped (wblank-attach.cc:155)")
c("C09", "partial", ["Verif.Attach.C09_null_flush_partial", "Verif.Attach.C09_violation_ub", "Verif.Attach.C09_violation_blank"],
  "the code violates it: at NUL wb_stack and in_wblank are not reset (wblank-attach.cc:80-99); proved when the first request is complete")
c("C10", "proved", ["Verif.Post.C10_posttransfer_null_flush", "Verif.Pre.C10_pretransfer_null_flush", "Verif.Detach.C10_detach_null_flush", "Verif.Detach.C10_detach_null_flush_wf"], "")
c("C36", "partial", ["Verif.Pre.C36_violation", "Verif.Pre.C36_escapes_partial"], "the code violates it: an escaped $ ends the word")
c("C37", "partial", ["Verif.Detach.C37_detach_keeps_partial", "Verif.Detach.C37_violation"], "the code violates it for a blank left open at the end of the input")

T = "Verif.Transfer."
c("C11", "proved", [T+"C11_conditions"], "all conditions as the DTD allows (one child in <not>), all states")
c("C12", "proved", [T+"C12_choose_first", T+"C12_choose_otherwise", T+"C12_choose_none", T+"C12_transfer_choose"], "for every interpreter (transfer, interchunk, postchunk share the code)")
c("C13", "proved", [T+"C13_let_clip", T+"C13_read_after_write", T+"C13_write_frame", T+"C13_write_absent", T+"C13_write_same", T+"C13_word_frame", T+"C13_queue_kept", T+"C13_read_after_write_needs_stability", T+"C13_no_side_not_read_back"],
  "the attribute must recognise the new value at the same place (shown to be necessary); side given (without it reading and writing use different sides)")
c("C14", "proved", [T+"C14_combine", T+"C14_empty", T+"C14_assoc"], "blanks whose pieces are escaped text")
c("C15", "proved", [T+"C15_blanks"], "all rules, macros at any depth")
c("C16", "partial", [T+"C16_longest_match_partial", T+"C16_total_partial", T+"C16_reject_after_shift_violation", T+"C16_shift_after_shift_violation"],
  "the loop shared by transfer, interchunk and postchunk, for every pattern automaton and every rule action; the code violates it when a rule is rejected right after a rule rejected with shifting (prev_last is stale: words are lost), the other cases are proved")
R = "Verif.Regex."
c("C17", "partial", [R+"C17_exact_partial", R+"C17_search_partial", R+"C17_hyphen_violation", R+"C17_bar_violation"],
  "proved for items without regular-expression characters other than + * ?; the code violates it for the others (only + * ? . are escaped, transfer_regex.cc:55,73): a hyphen can become a range, a bar an alternative")
c("C38", "partial", [T+"C38_lu_wblank", T+"C38_single_word", T+"C38_mlu_loses_wblank_violation"], "proved for <lu>; the code violates it for a variable assigned after an <mlu>, which leaves in_lu set (transfer.cc:337-378)")
c("C39", "partial", [T+"C39_reject", T+"C39_reject_silent_partial", T+"C39_reject_writes_blanks_violation"], "the code violates it: the blanks that are not single spaces are written on rejection and read again; proved when all are single spaces")
c("C40", "proved", [T+"C40_let_var", T+"C40_macro", T+"C40_words_fixed"], "expressions that build no lexical unit; macros called with the declared number of arguments")

K = "Verif.Chunk."
c("C18", "partial", [K+x for x in ["C18_split", "C18_word", "C18_set", "C18_read", "C18_read_back", "C18_lemma_without_tags_violation", "C18_bracket_violation"]],
  "see the violation theorems for where the code departs from the property")
c("C41", "partial", [K+"C41_unfold_partial", K+"C41_last_blank_violation"],
  "proved for chunks that do not end with a plain character of a blank: the code loses it (endChunk is size()-2, postchunk.cc:821)")
c("C42", "partial", [K+"C42_rule_sees_partial", K+"C42_leading_blank_violation", K+"C42_escaped_bracket_violation"],
  "proved for chunks that begin with a word; the code moves a leading blank to the end of the blank that follows the chunk, and misreads a word-bound blank that ends with an escaped ]")
K2 = "Verif.Token."
c("C43", "partial", [K2+x for x in ["C43_chunk_tokens", "C43_transfer_tokens_partial", "C43_wblank_escape_violation", "C43_unclosed_superblank_violation", "C43_unclosed_chunk_violation", "C43_unclosed_wblank_violation"]],
  "proved for interchunk and postchunk; for transfer if no word-bound blank begins with an escaped character (there the code is wrong); an unclosed superblank, chunk or word with word-bound blank makes the programs loop for ever")
c("C44", "partial", [K+"C44_default_partial", K+"C44_rule_violation"], "holds for the default action; the code ignores the option in splitWordsAndBlanks, which rules use")
c("C45", "proved", [K2+"C45_interchunk_identity"], "for every pattern automaton that accepts nothing")
c("C46", "partial", [K2+"C46_null_flush_partial", K2+"C46_inword_violation", "Verif.Whole.C46_transfer_violation", "Verif.Inter.C46_interchunk_partial", "Verif.Postchunk.C46_postchunk_violation"], "interchunk and postchunk, parts that are well-formed streams; the code keeps inword after a part that ends inside a word; apertium-transfer and apertium-postchunk keep the word-bound blanks of variables from one part to the next")
B = "Verif.Bil."
c("C47", "proved", [B+"C47_rule", B+"C47_default", B+"C47_default_lu", B+"C47_pattern"], "words in which the special characters are escaped")
c("C48", "partial", [B+"C48_no_rules", B+"C48_digit_tag_violation", B+"C48_brace_violation"], "proved for texts with special characters escaped and no tag beginning with a digit; violated by tags that begin with a digit")

G = "Verif.Tagger."
c("C19", "proved", [G+"C19_viterbi", G+"C19_stream", G+"C19_whole_text", G+"C19_classes"],
  "for every ordered type of weights whose product is monotone (this covers rounded non-negative doubles without NaN); whole texts for exact arithmetic")
c("C20", "partial", [G+x for x in ["C20_stream", "C20_once", "C20_words", "C20_ambiguous_end_violation", "C20_multiword_violation", "C20_no_analysis_violation", "C20_truncated_violation", "C20_undo_violation"]],
  "from text to text for every well-formed stream without multiwords; with multiwords the code can write parts of two analyses or use a deleted word; units without analyses and truncated input lose text")
c("C23", "partial", [G+"C23_discard_partial", G+"C23_safe", G+"C23_lost_violation", G+"C23_length_violation"],
  "proved if the analysis of the lowest tag does not match; otherwise the code loses the next analysis")
c("C24", "proved", [G+"C24_collection"], "any sequence of insertions")
c("C25", "partial", [G+x for x in ["C25_similar_partial", "C25_history_bound", "C25_necessary", "C25_history_violation", "C25_open_class_violation", "C25_superset_violation"]],
  "the code violates it: the search writes through a reference to the open class (tagger_utils.cc:151), so the answer depends on earlier queries")

TR = G + "Train."
LS = G + "Lsw."
c("C21", "partial", [TR+"C21_rules_partial", TR+"C21_never_zero_violation", TR+"C21_certain_violation"],
  "the code writes 1e-10 and then normalises, so a forbidden transition never gets zero and can even become certain; proved: the exact values, rows sum to one")
c("C22", "partial", [LS+"C22_valid_partial", LS+"C22_sound", LS+"C22_repeated_violation"],
  "proved for triples whose first two tags differ; for a repeated tag the code does not check the second bigram against the enforce rule (else if, lswpost.cc:213)")
c("C49", "proved", [TR+"C49_kupiec", TR+"C49_supervised"], "exact rational arithmetic instead of double")
c("C50", "proved", [LS+"C50_parameters", LS+"C50_refused", LS+"C50_mass"], "exact rational arithmetic instead of double")
c("C51", "partial", [LS+x for x in ["C51_words_partial", "C51_tail_violation", "C51_no_words_violation", "C51_flush_violation", "C51_empty_request_violation", "C51_unknown_violation"]],
  "proved for all words but the last; the code never writes the last word (which carries the text at the end), reads the first tag of an empty set for unknown words, and delays text past the NUL in null-flush mode")

c("C52", "proved", [TR+x for x in ["C52_counts", "C52_parameters", "C52_relative", "C52_iterations", "C52_impossible_violation"]],
  "exact rational arithmetic instead of double, for positive parameters (which initialisation gives and training preserves); transitions never expected get 1e-10 before normalisation")

U = "Verif.Unigram."
c("C26", "partial", [U+x for x in ["C26_counts", "C26_keys", "C26_unknown", "C26_permutation", "C26_totals", "C26_types", "C26_choice_model1", "C26_score_model2", "C26_score_model3", "C26_choice_violation", "C26_nul_stops"]],
  "counters, totals and types are exact for all three models and the choice of model 1 does not depend on the order of the corpus; the coefficient does, so models 2 and 3 (with the added ones) may choose differently for the same corpus in another order; exact arithmetic")
c("C27", "proved", [U+"C27_best", U+"C27_output", U+"C27_first_keeps_all"], "any score whose comparison is that of numbers (no NaN)")
c("C28", "partial", [U+"C28_roundtrip", U+"C28_reader_sound", U+"C28_reprint", U+"C28_reprint_violation"],
  "printing and parsing gives the analysis back for all well-formed analyses; parsing and printing gives the text back for lemmas without #; the code moves a lemma queue before the tags")
c("C30", "partial", [U+"C30_sentence_partial", U+"C30_unigram_violation", U+"C30_sentence_violation"],
  "the unigram tagger never writes a NUL; the sentence tagger loses those directly after a lexical unit and copies the others")
c("C53", "proved", [U+"C53_unigram_stream"], "NUL is lost, see C30")
c("C54", "proved", [U+"C54_sentence_stream", U+"C54_units", U+"C54_boundary"], "NUL see C30; tagSentence is any function that gives one of the analyses of each unit")
c("C55", "partial", [U+"C55_aligned", U+"C55_strict", U+"C55_skip_aligned", U+"C55_skip_violation"],
  "with --skip-on-error the code throws away the sentence before when the streams differ at the first token of a sentence, and uses an uninitialised pointer at the first token of the streams")

M="Verif.Mode."
c("C33", "partial", [M+x for x in ["C33_idempotent_partial", "C33_stages", "C33_kept", "C33_modern", "C33_option", "C33_option_violation", "C33_lines_violation"]],
  "idempotent for every text without -z; with -z the code is not (the helpers get the option only the second time); lines are joined without a separator")

P="Verif.Percep."
c("C32", "partial", [P+x for x in ["C32_average_partial", "C32_keys", "C32_zero_violation", "C32_shared_feature_violation"]],
  "exact means of the running weights when no mean is zero; the code erases an entry whose total is zero and then increments the erased iterator, which is undefined and happens whenever the right and the chosen analyses of the only updates share a feature")
c("C56", "partial", [P+x for x in ["C56_choice", "C56_stream", "C56_optimal_partial", "C56_narrow_violation", "C56_single_violation", "C56_zero_beam_violation"]],
  "the score that is optimal leaves out the features of words with one analysis (C56_single_violation); exact arithmetic; a beam width of zero is accepted and undefined")
c("C57", "partial", [P+x for x in ["C57_sentence", "C57_updates", "C57_converges", "exGold_converges", "C57_unavailable", "C57_shared_violation", "C57_zero_iterations_violation", "C57_forced_violation"]],
  "everything but the average holds of the code (exact arithmetic, sentences whose right analyses are available); averages see C32; a word whose only analysis is not the right one makes an empty update")

V="Verif.VM."
c("C58", "partial", [V+x for x in ["C58_features_partial", "C58_template_partial", "C58_adjust", "C58_clamp", "C58_wordoid", "C58_token",
   "C58_violation_or", "C58_violation_lost", "C58_violation_and", "C58_violation_order", "C58_violation_loop", "C58_violation_empty", "C58_violation_join", "C58_violation_global"]],
  "compiled templates run to the features of the specification wherever the code is right (Clean); the code is wrong for true operands of or and false operands of and after the first, loops around out, empty loops, leading empty strings of join, macros in the global condition, and for compilers that evaluate operands left to right")

S="Verif.Serial."
c("C29", "partial", [S+x for x in ["C29_hmm", "C29_hmm_again", "C29_hmm_tags", "C29_hmm_writes", "C29_lsw", "C29_lsw_writes", "C29_unigram", "C29_perceptron",
   "C29_training_discard_violation", "C29_read_twice_violation", "C29_concatenation_violation"]],
  "all four taggers come back as written, and the HMM tags as before; not kept: emission probabilities outside the ambiguity class, LSW cells up to ZERO, the discards of a definition when training, the old-format end of data when something follows; how lttoolbox writes numbers, strings and patterns is assumed")

CA="Verif.Caps."
c("C31", "partial", [CA+x for x in ["C31_extract_exact_partial", "C31_extract_total", "C31_lemmaPrefix_spec", "C31_upToLastTags_unique", "C31_extract_unanalysed_violation", "C31_extract_close_violation"]],
  "holds when every unit has an analysis and no [[/]] stands directly before a unit; a unit without analysis loses its text, a closing mark is merged into the next unit's word-bound blank; lttoolbox's reading functions and getcase are assumed")
c("C59", "partial", [CA+x for x in ["C59_restore_text_partial", "C59_restore_total", "C59_restore_loose_violation", "C59_restore_pieces_violation", "C59_restore_empty_violation"]],
  "holds when the piece about capitals is the last of its word-bound blank; word-bound blanks not directly before a unit, pieces after c:, and the blank of a unit with an empty surface form are lost; the rule automaton is a parameter")
c("C60", "partial", [CA+x for x in ["C60_restore_choice_partial", "C60_restore_choice_end_violation"]],
  "holds for sections that end with NUL directly after a word; at the end of the input (or before NUL after a blank) the matches at the last word are counted again for the words before; integer weights")
c("C61", "proved", [CA+"C61_wblank_roundtrip"], "word-bound blanks that are not empty and have no piece about capitals before extraction")

H="Verif.Help."
c("C34", "partial", [H+x for x in ["C34_words", "C34_width", "C34_fits", "C34_table", "C34_terminates_partial", "C34_table_terminates_partial", "C34_long_word_violation", "C34_margin_violation"]],
  "words, width and table hold whenever the function returns, for margins from 1 to 79; it returns if every word fits behind the margin; it loops for ever on a word of 80 or more characters, and with margin 0 on a text with a line break")
X="Verif.Tmx."
c("C35", "partial", [X+x for x in ["C35_optimal_partial", "C35_tool_partial", "C35_two_to_one_violation", "C35_exchange_violation", "C35_start_violation"]],
  "optimal among alignments without two-for-one pieces: the value of such a piece is computed but never stored, so it is never chosen; the trail leaves out the sentences before the first aligned one; exact arithmetic, scores up to 1e6, books up to 3e6 sentences (int overflow of the code for books above 46340 sentences is outside the model)")
c("C62", "partial", [X+x for x in ["C62_text_partial", "C62_bisent_partial", "C62_start_violation", "C62_cautious_violation", "C62_empty_violation"]],
  "complete without -cautious, if both books have sentences, but for the sentences of one book before the first aligned one; -cautious loses the end; an empty book (accepted if the other has at most four sentences) is undefined behaviour; the scores and the choice of spaceOutBySentenceLength are parameters")
c("C63", "partial", [X+x for x in ["C63_segment_partial", "C63_lines_partial", "C63_filter", "C63_unit_violation", "C63_placeholder_violation"]],
  "the segment text is right unless a placeholder stands outside a space at an end; but the condition in printTU is inverted: every unit written has an empty first segment; the columns start with the line end or tab before them, so that a placeholder at the start of a column is always cut")
c("C64", "partial", [X+x for x in ["C64_sentences_partial", "C64_last_violation", "C64_stop_violation", "C64_blank_violation"]],
  "sentences are right up to the last end of a sentence before the end of the text; the rest is lost; a blank that does not end aborts the program")

F="Verif.Format."
c("C65", "partial", [F+x for x in ["C65_round_trip", "C65_round_trip_entities", "C65_round_trip_nodot", "C65_round_trip_eoh", "C65_nodot_violation", "C65_eoh_violation", "C65_eoh_dot_violation", "C65_utf8_violation", "C65_nul_violation", "C65_entity_violation"]],
  "holds for UTF-8 without NUL bytes, without -n and -o (with -n if the document has no full stop, with -o if the format has no header rules); otherwise full stops are lost, marks stay, or the rest of the text is lost; entities marked as preferred are never put back")
c("C66", "proved", [F+x for x in ["C66_well_formed", "C66_reformat", "C66_missing_file"]],
  "for UTF-8 without NUL bytes; flex's longest match, first rule, and to_ustring on UTF-8 are assumed")
c("C67", "proved", [F+"C67_txt_stream"], "for UTF-8 without NUL bytes")

c("C68", "proved", [F+"C68_markup"], "for UTF-8 without NUL bytes; flex's longest match, first rule, and to_ustring on UTF-8 are assumed")

GM="Verif.GenModes."
c("C69", "partial", [GM+x for x in ["C69_mode", "C69_file", "C69_read", "C69_modes", "C69_steps", "C69_suffixes", "C69_trace", "C69_untrimmed", "C69_twice_violation", "C69_empty_violation"]],
  "the set of modes and their contents are exact, for files in which no name begins with @ (names are XML IDs); but the trace option is added twice in the untrimmed modes, and an empty attribute dereferences a null pointer")
c("C70", "partial", [GM+x for x in ["C70_text", "C70_install", "C70_dev", "C70_once", "C70_quote_violation", "C70_local_violation", "C70_same_name_violation"]],
  "holds for programs and arguments without characters that have a meaning in a shell and paths without a single quote, which the program does not escape; -l without -f is taken for an installation; fs::absolute and / are parameters")

MU="Verif.Mult."
c("C71", "partial", [MU+x for x in ["C71_tokens", "C71_acceptions_partial", "C71_choices", "C71_number", "C71_program_partial", "C71_second_violation", "C71_bar_violation", "C71_open_violation", "C71_backslash_violation"]],
  "holds if no blank or translation has [|] in it and blanks are closed; a default translation that is the second of three or more is not put first; a [|] blank makes one variant look like several; an unclosed blank loops for ever; a translation that ends in a backslash is undefined behaviour; the automaton and the dictionary are parameters")

PA = "Verif.Pattern."
c("C72", "partial", [PA+x for x in ["C72_category_partial", "C72_rule_partial", "C72_banned_partial", "C72_compiles", "C72_automaton_partial", "C72_longest_partial", "C72_word", "C72_chunk", "C72_chunk_name", "C72_mult",
  "C72_escaped_violation", "C72_uppercase_violation", "C72_stars_violation", "C72_lemma_violation", "C72_dollar_violation", "C72_rejected_violation"]],
  "holds for items without backslash, $ and neighbouring stars, and words without an escaped $ or a tag <ANY_CHAR>; an escaped character or a capital letter in a lemma matches nothing; *.* is *; an item with a lemma and no tags matches every word without tags; an escaped $ in a word is taken for its end; a rule that rejects the words hides later rules that match them; of lttoolbox it is assumed that minimize keeps what is accepted (shown to be possible)")

CX = "Verif.Crx."
c("C73", "partial", [CX+x for x in ["C73_compiles", "C73_matches_partial", "C73_weights", "C73_bounded", "C73_restore_partial", "C73_text",
  "C73_tags_violation", "C73_slash_violation", "C73_plane_violation", "C73_noform_violation", "C73_boundary_violation"]],
  "holds for rules with characters of the basic multilingual plane, no / in lemma or surface form, no neighbouring stars and no ? or + after * or + in the tags, and words without an escaped / and without the tags that the program uses itself; the election is stated for rules that match in one way at a word; otherwise *.? is *, an escaped / is taken for the end of the form, a lemma outside the plane never matches, a unit without analysis is matched by no rule without lemma, and a unit with the tag <$> makes the program write out of bounds; of lttoolbox it is assumed that minimize keeps what is accepted and leaves no empty labels and useless edges (shown to be possible)")

W = "Verif.Whole."
c("C74", "partial", [W+x for x in ["C74_transfer_partial", "C74_unique_partial", "C74_position_violation", "C74_untranslated_violation"]],
  "an equivalence, for inputs in which special characters are escaped (and no source has an escaped $), rules without reject-current-rule whose positions are those of their patterns, and categories as in C72; a rule with a position after its pattern gets words that were read ahead for longer patterns, a unit without translation is dropped; rejection is covered by C16 for any automaton")

I = "Verif.Inter."
c("C75", "partial", [I+x for x in ["C75_interchunk_partial", "C75_unique_partial", "C75_content", "C75_memory", "C75_position_violation", "C75_no_content_violation", "C75_lemma_violation", "C75_unchecked_violation", "C75_lu_violation"]],
  "an equivalence, for inputs in which special characters are escaped (and no head has an escaped $), rules without reject-current-rule whose positions are those of their patterns, and categories as in C72; the last two sentences without these conditions; <let>, <modify-case> and <call-macro> with positions outside the pattern are undefined behaviour, and the content of a word without braces ends the program")

PC = "Verif.Postchunk."
c("C76", "partial", [PC+x for x in ["C76_postchunk_partial", "C76_unique", "C76_memory", "C76_no_braces_violation", "C76_two_chunks_violation", "C76_macro_violation", "C76_empty_chunk_violation", "C76_assign_violation"]],
  "an equivalence, for inputs in which special characters are escaped and whose chunks begin with a word and do not end with a bare character (C41, C42), rules without reject-current-rule whose pattern is one category (as the DTD demands); words without braces are dropped, a macro without parameters ends the program, assignments to positions outside the chunk are undefined behaviour")

PT = "Verif.Parts."
c("C77", "partial", [PT+x for x in ["C77_read_partial", "C77_assign_partial", "C77_chunk_partial", "C77_attr_partial", "C77_escape_violation", "C77_hash_violation", "C77_brace_violation"]],
  "for words without `<` in the lemma and with `#` only before an invariable part: escaped `<` and `#` are taken for the real ones, and `#` elsewhere is in neither half of the lemma; chunk parts for chunks with at least one tag and no brace in the name; the engine (leftmost match, alternatives and repetitions in order) stands for ICU's")
c("C78", "proved", [I+x for x in ["C78_value", "C78_out", "C78_let_var", "C78_let_part", "C78_modify_case", "C78_append", "C78_start", "C78_macro", "C78_blanks"]],
  "laws of the interpreter that C75 uses; parts are any regular expressions (C77 says which the predefined ones are); macros called with the declared number of arguments; assignments to positions outside the chunks and content of words without braces are the violations of C75")

c("C79", "partial", [PC+x for x in ["C79_value", "C79_lu", "C79_mlu", "C79_out", "C79_let_var_partial", "C79_append_partial", "C79_let_part", "C79_modify_case", "C79_macro", "C79_macro_outside", "C79_start", "C79_blanks", "C79_var_to_var_violation"]],
  "laws of the interpreter that C76 uses, for expressions without lexical units nested in others; word-bound blanks are lists of pieces; a variable assigned from another variable loses the word-bound blanks (violation)")

TS = "Verif.Tsx."
c("C80", "partial", [TS+x for x in ["C80_read_partial", "C80_duplicate", "C80_terminates", "C80_numbers", "C80_unknown_label_violation", "C80_forward_label_violation", "C80_order_violation", "C80_unknown_section_violation", "C80_empty_label_violation", "C80_label_item_end_violation", "C80_reread_violation"]],
  "the file as the sequence of nodes that libxml2 reports; C80_read_partial leaves out the long form of label-item in a label-sequence, which is rejected, and says what a reader keeps that has read another file; labels that no definition has are silently the tag LPAR; C80_terminates and C80_numbers for any sequence of nodes")

D = "Verif.Driver."
c("C81", "partial", [D+x for x in ["C81_run_partial", "C81_reject_partial", "C81_only_partial", "C81_iterations", "C81_negative_violation", "C81_help_violation", "C81_unigram_violation", "C81_abort_violation", "C81_flags_violation"]],
  "options as getopt_long reports them; the partial theorems assume that the two flags that the program does not initialise happen to be off; -h, -u 12, -1 iterations and -x with -r or -t do something else than an error or what the usage says")
c("C82", "partial", [D+x for x in ["C82_only_target", "C82_training_last", "C82_train_inputs", "C82_retrain_violation", "C82_retrain_stdin_violation", "C82_retrain_zero_violation"]],
  "the algorithms are any functions of their inputs; holds but for retraining, which throws the probabilities away, reads standard input for a dictionary and starts from memory that was not initialised; and the old tagger is lost if the program is stopped while it writes")

MX = "Verif.Mtx."
c("C83", "partial", [MX+x for x in ["C83_read_partial", "C83_beam_violation", "C83_set_violation", "C83_loop_violation", "C83_strlen_violation", "C83_toklen_violation", "C83_inst_violation", "C83_argument_violation", "C83_arguments_violation", "C83_call_violation", "C83_out_violation", "C83_slots_violation", "C83_slice_violation", "C83_number_violation", "C83_scope_violation", "C83_condition_violation"]],
  "the file as the sequence of nodes that libxml2 reports, at the end of an element with the attributes of its start; C83_read_partial: for the files that the grammar Writes describes (macros without arguments and not called in each other or in the condition, all loops of a file over lists of the same kind, no beam-width, def-set, strlen, arrlen, toklen, inst), with numbers that fit a byte, at places where C58 holds; the violations show what is wrong outside of it")


TR = "Verif.Trx."
c("C84", "proved", [TR+x for x in ["C84_read", "C84_rules", "C84_compiled"]],
  "the file as a tree, seen by the compiler as the nodes that libxml2 reports and by the transfer programs as elements; lttoolbox (splitting of tags, minimisation, the format of the automaton) and ICU (whether an expression compiles) are parameters; what the patterns match is C72, what the expressions of parts match is C17 and C77; strings are written as characters instead of UTF-16 units; files that are not written by the document type (sections in another order, a rule without action) are outside")
c("C85", "partial", [TR+x for x in ["C85_reported_partial", "C85_first_violation", "C85_undefined_violation"]],
  "holds for categories in patterns, parts in rules and macros defined twice; the code does not check the names of macros, variables and lists, nor the parts in macros, and a call of a macro that is not defined runs the first macro of the file")

LX = "Verif.Latex."
c("C86", "partial", [LX+x for x in ["C86_roundtrip_partial", "C86_same_partial", "C86_accent_violation", "C86_dotless_violation", "C86_hash_violation", "C86_environment_violation", "C86_verbatim_violation", "C86_option_violation"]],
  "the rules of the flex files are transcribed by hand, and flex (longest match, first rule, default rule) is modelled; characters instead of bytes; holds for every sequence of the pieces of Spec; what is left out there is not restored by the code, see the violations")

DX = "Verif.Docx."
c("C87", "partial", [DX+x for x in ["C87_total", "C87_boundary", "C87_ends", "C87_legal", "C87_unchanged", "C87_twice", "C87_document", "C87_print", "C87_content_partial", "C87_tab_violation", "C87_hyperlink_violation", "C87_break_violation", "C87_comment_violation", "C87_cdata_violation", "C87_dangling_violation"]],
  "the tree as libxml2 gives it; texts as characters instead of bytes, which the positions allow; the letters are any set without hyphen, middle dot and U+0000; all but C87_content_partial hold for all documents (C87_legal, C87_document and C87_twice: for runs with at most one text node); what is read is kept only if nothing visible stands inside or between the text runs of a paragraph")

FA = "Verif.Tagger."
c("C88", "partial", [FA+x for x in ["C88_output", "C88_classes", "C88_idempotent", "C88_training", "C88_empty_violation", "C88_nul_violation", "C88_discard_violation"]],
  "for corpora without multiwords cut at +, well-formed as in C20, without NUL, without empty analyses and without discard rules: empty analyses, NULs and discard rules give wrong output (violations)")

DM = "Verif.Dom."
c("C89", "proved", [DM+x for x in ["T.C89_expr", "T.C89_rule", "T.C89_history", "T.C89_program", "I.C89_inter_expr", "I.C89_inter_rule", "I.C89_inter_history", "I.C89_inter_program", "P.C89_post_expr", "P.C89_post_rule", "P.C89_post_history", "P.C89_post_program", "C89_valid", "C89_macro", "C89_meaning", "C89_file", "C89_inter_file", "C89_post_file"]],
  "against the abstract rules that C51, C75 and the other claims about rules are stated for (absExpr, absInstr and so on say which one an element denotes, for the elements of the document type); libxml2 is taken to keep a text node for every attribute value, also an empty one; atoi without overflow")

c("C90", "partial", ["Verif.Glob."+x for x in ["C90_expression", "C90_attribute", "C90_match_partial", "C90_table", "C90_prefer_partial", "C90_discard_partial", "C90_meta_violation", "C90_lemma_violation"]],
  "for tags whose names are plain characters (the code puts them into the expression unescaped, so a full stop, a plus sign or a parenthesis in a name changes what the pattern fits: C90_meta_violation) and lexical forms without angle brackets in the lemma (C90_lemma_violation); ICU's matching without case is taken as comparison after folding character by character, with a fold that keeps angle brackets; prefer and discard for the case that not every analysis is discarded")

c("C91", "partial", ["Verif.Tex."+x for x in ["C91_roundtrip_partial", "C91_same_partial", "C91_ascii_partial", "C91_violation"]],
  "for the documents described in Latex/Spec.lean and number signs, as for C86; the rest is not only missing but lost by the code: the command of ł runs into the letters behind it, a character beyond sixteen bits becomes another one, letters of verbatim text become commands (C91_violation)")


c("C92", "partial", ["Verif.NewRules."+x for x in ["C92_rules_partial", "C92_units", "C92_order_violation", "C92_discard_violation"]],
  "for a definition with the same tags in the same order, and with exact arithmetic rounded once; with the same tags in another order the code uses the numbers of the new definition for the states of the old tagger (C92_order_violation), and the discards of the tagger are lost because TaggerData::copy does not copy them (C92_discard_violation); probability zero is 1e-10 before the division (see C21)")

c("C93", "partial", ["Verif.ReadWords."+x for x in ["C93_words_partial", "C93_unknown_violation"]],
  "for corpora of well-formed lexical units (as C20) and definitions without discard rules (with --tsxfile there never are any, as they are lost on the way); an unknown word is reported even if all is known that the tagger needs (C93_unknown_violation)")

c("C94", "partial", ["Verif.Coarse."+x for x in ["C94_agree_partial", "C94_exact", "C94_cache", "C94_ambgset_partial", "C94_unknown_violation", "C94_escape_violation"]],
  "for a lemma without '<', an analysis without a lemma queue, and tags that the patterns name; C94_exact says what is found with other tags: they count as if they were not there, while the HMM tagger finds no coarse tag (C94_unknown_violation); an escaped '<' in the lemma begins a tag for the HMM tagger only (C94_escape_violation). The ambiguity sets are proved for analyses of one morpheme; the cache for all histories")

c("C95", "partial", ["Verif.TmxSim."+x for x in ["C95_score_partial", "C95_exact", "C95_number", "C95_order", "C95_symmetric", "C95_bounds", "C95_self", "C95_matrix", "C95_tool_partial", "C95_numbers_violation"]],
  "the similarity is proved for sentences with a word that comes after all numbers in the order of bytes, and C95_exact says what it is otherwise: numbers that come after all words of the other sentence are not compared (C95_numbers_violation); order, symmetry, bounds and the comparison with itself hold for all sentences. The best alignment as in C35: the trail begins at the last point where one of the texts has not begun; exact arithmetic")


c("C96", "partial", ["Verif.TmxBuild."+x for x in ["C96_lines_partial", "C96_program_partial", "C96_words", "C96_white_partial", "C96_newline_violation", "C96_blank_violation"]],
  "C96_words and C96_white_partial are for texts with any white space: the aligner gets all their words, in order, and the pairs contain them; that each sentence is one for the aligner is proved for texts without white space other than spaces and tabs (a newline within a sentence makes two sentences of it, one between two sentences an empty one: C96_newline_violation; a line of blanks only vanishes: C96_blank_violation), below the limits of size of the aligner, and without the cautious mode; one text may lose sentences before the point where the trail begins (as in C35); what is then written from the pairs is C63")


c("C97", "partial", ["Verif.FeatVec."+x for x in ["C97_order", "C97_run", "C97_score", "C97_dot", "C97_linear", "C97_symmetric", "C97_unary", "C97_make", "C97_explain_partial", "C97_repeated_violation"]],
  "everything for all vectors and histories, in exact arithmetic, but for the vector that is printed: it is the one of the score only if no feature of the word occurs twice (C97_explain_partial); a feature that occurs twice counts twice but is printed with the value 1 (C97_repeated_violation; C97_make says what the printed vector is)")


c("C98", "partial", ["Verif.TmxFile."+x for x in ["C98_file", "C98_document_partial", "C98_placeholder_violation", "C98_language_violation"]],
  "C98_file is for all files of segments that are well-formed; C98_document_partial is for the columns whose segments C63_segment_partial describes (placeholders not outside white space at an end, characters that XML has). Two placeholders with a space at the end of a column make a file that is no XML (C98_placeholder_violation), and so do codes of languages with characters that are special in XML (C98_language_violation). The first segment of every unit is empty (C63_unit_violation)")


c("C99", "partial", ["Verif.TransferCli."+x for x in ["C99_options", "C99_usage", "C99_order", "C99_help", "C99_count_partial", "C99_all", "C99_extra_violation", "C99_output_violation"]],
  "everything but: with -b or -n five files are taken for those of a translation with a dictionary (C99_extra_violation), and the output file is opened, hence emptied, before the other files are known to be there (C99_output_violation). The parsing of the arguments into options and files is that of getopt_long; abbreviated long options are not modelled")


c("C100", "partial", ["Verif.Setvar."+x for x in ["C100_every_request", "C100_unset", "C100_no_trace_partial", "C100_mode_partial", "C100_preferences_partial", "C100_no_file_partial", "C100_run_partial",
   "C100_greater_violation", "C100_own_command_violation", "C100_none_left_violation", "C100_equals_violation"]],
  "everything but: a preference with > in it is not taken out of the translation (C100_greater_violation), the user's own commands are taken out with it (C100_own_command_violation), a value that ends in = loses it (C100_equals_violation), and if no option is left the preference is given without a value (C100_none_left_violation). Preferences with newlines, or whose first begins with -, are left out of C100_preferences_partial (echo and $(...) of the shell change them). What xmllint finds in the file of preferences is given")


c("C101", "partial", ["Verif.ApertiumCli."+x for x in ["C101_options", "C101_translate_partial", "C101_count", "C101_list", "C101_unknown", "C101_version", "C101_only",
   "C101_direction_violation", "C101_unknown_format_violation", "C101_late_option_violation"]],
  "everything but: without -o no direction at all is given to lt-tmxcomp, although the usage message says that the direction of the translation is (C101_direction_violation); -u has no effect with a format that is not known (C101_unknown_format_violation); an option after files that are after options is taken for a file (C101_late_option_violation). What the functions translate_... do is not modelled")

if __name__ == "__main__":
    out = os.path.join(os.path.dirname(__file__), "..", "MANIFEST.json")
    json.dump({"claims": C}, open(out, "w"), indent=1, ensure_ascii=False)
    print(len(C))
