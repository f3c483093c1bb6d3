c("C01","proved",[("Levenshtein","levenshtein_minimal")],"loop invariant + optimality over inductive edit scripts")
c("C02","proved",[("Levenshtein","levenshtein_zero_iff levenshtein_symm levenshtein_triangle")],"metric laws, from minimality over edit scripts")
c("C03","proved",[("Levenshtein","levenshtein_bounds normalized_value normalized_range normalized_symm")],"exact rationals in place of floats")
c("C04","proved",[("Lcs","lcs_correct")],"")
c("C05","proved",[("Lcs","lcs_length_symm normalized_lcs_props")],"exact rationals in place of floats")
c("C06","proved",[("NGram","pad_length n_gram_count n_gram_nth n_gram_complete n_gram_mem_iff n_gram_strings_eq n_gram_range_nopad n_gram_range_pad n_gram_range_sizes")],"")
c("C07","proved",[("NGram","skip_bigrams_eq skipPositions_mem skipPositions_nodup skip_bigrams_count skip_bigrams_zero padded_skip_bigrams_eq")],"")
c("C08","proved",[("Similar","dice_coefficient jaccard_coefficient tanimoto_coefficient cosine_coefficient overlap_min_coefficient overlap_max_coefficient match_counts coefficient_values")],"exact numbers in place of floats")
c("C09","proved",[("Similar","jaccard_eq_one dice_eq_one tanimoto_eq_one overlap_max_eq_one cosine_eq_one overlap_min_eq_one dice_not_one_on_identical")],"full claim of the documentation is false of the code: counterexample dice_not_one_on_identical; the other theorems are for duplicate-free inputs")
c("C10","proved",[("Similar","gen_dice_range gen_jaccard_range gen_cosine_range gen_cosine_singleton_exceeds gen_two gen_values")],"generalised cosine leaves [0,1] on a one-element list (gen_cosine_singleton_exceeds)")
c("C11","proved",[("Rouge","rouge_n_value rouge_n_range rouge_n_nonneg rouge_n_exceeds_one rouge_n_self")],"upper bound false without clipping (rouge_n_exceeds_one)")
c("C12","proved",[("Rouge","rouge_l_value rouge_s_value rouge_su_value rouge_l_range rouge_l_error rouge_l_symm rouge_l_self rouge_s_range rouge_s_error rouge_s_symm rouge_s_self rouge_s_self_iff rouge_s_self_not_one rouge_su_range")],"rouge_s on identical input is 1 only for duplicate-free skip bigrams (rouge_s_self_not_one)")
c("C13","proved",[("Median","median_minimal median_empty")],"")
c("C14","proved",[("NW","needleman_wunsch_optimal nw_nonuniform_not_optimal")],"optimal for constant gap costs; false for element-dependent costs (nw_nonuniform_not_optimal)")
c("C15","proved",[("NW","needleman_wunsch_valid needleman_wunsch_matrix needleman_wunsch_optimal")],"for constant gap costs")
c("C16","proved",[("SW","smith_waterman_optimal smith_waterman_matrix smith_waterman_total sw_positive_gap_not_optimal")],"optimality needs gap costs <= 0, counterexample for positive ones")
c("C17","proved",[("SW","waterman_eggert_limit waterman_eggert_valid waterman_eggert_first_optimal waterman_eggert_prefix waterman_eggert_consecutive_disjoint waterman_eggert_scores waterman_eggert_not_positive waterman_eggert_diverges waterman_eggert_intersecting")],"documented non-intersection is false (waterman_eggert_intersecting), and the search may not terminate (waterman_eggert_diverges)")
c("C18","proved",[("TfIdf","term_frequencies_correct document_frequencies_correct tf_idf_value idf_value idf_bounds weight_bounds tf_sum_one tf_idf_one_document")],"real numbers in place of floats")
c("C19","proved",[("Number","spell_words spell_words_hundreds spell_injective_iff spell_injective spell_domain spell_not_injective")],"the words equal an independent specification for all n < 10^24; which numbers are spelled alike is characterised exactly; IndexError from 10^24 on")
c("C21","proved",[("ODict","ordered_dict_refines fromkeys_order")],"refinement to a list of entries over all histories")
c("C22","proved",[("Counter","counter_keys_unique counter_update counter_of_iterable counter_update_mapping counter_copy counter_del counter_operators counter_elements elements_of_counter most_common_all most_common_n")],"")
c("C20","proved",[("Munkres","munkres_optimal munkres_empty make_cost_matrix_entries")],"exact rationals in place of floats; rectangular matrices (the documented domain); includes termination and absence of index errors in the path array")
c("C23","proved",[("GenericCache","cache_size_bounded cache_limit")],"any history, re-inserts included")
c("C24","proved",[("GenericCache","cache_refines cache_recency_order cache_evicts_least_recent cache_retains")],"for histories without re-insertion of a live key")
c("C25","proved",[("GenericCache","cache_refines cache_insert_diverges")],"terminates for histories without re-insertion of a live key; false otherwise (cache_insert_diverges)")
c("C26","proved",[("GenericCache","memo_transparent memo_default_fail")],"caches with default_fail off (the default); with it on the first call raises (memo_default_fail)")
c("C57","proved",[("LRUStock","lru_list_integrity lru_double_add")],"pointer-level model")
c("C27","proved",[("Graph","odigraph_refines odigraph_views_agree")],"every history of the mutators; nodes and edge dictionaries as heap objects")
c("C28","proved",[("DaesoGraph","terminal_yield_reachable terminal_yield_tree isTerminal_exact isTerminal_iff terminals_exact")],"every graph built through the API; start node in the graph")
c("C29","proved",[("DaesoGraph","add_edge_checked edges_join_nodes add_edges_from_prefix")],"")
c("C30","proved",[("DaesoGraph","node_token_string_roundtrip node_tokens_roundtrip node_tokens_empty graph_token_string_roundtrip")],"strings as lists of characters; any white space test that includes the space")
c("C58","proved",[("Graph","add_node_independent attributes_independent add_nodes_from_shares add_node_dict_shares")],"proved for histories without add_nodes_from of several nodes and without shared attr_dict; false otherwise (add_nodes_from_shares, add_node_dict_shares)")
c("C31","proved",[("GraphPair","mapping_refines")],"every history, deep copies included; source and target names may coincide; networkx DiGraph modelled from its documented behaviour")
c("C32","proved",[("GraphPair","matching_refines matching_one_to_one matching_partners")],"")
c("C33","proved",[("GraphPair","alignments_equal_iff alignments_equal_of_same_map")],"")
c("C34","proved",[("GraphPair","roots_aligned_computes roots_aligned_wrong")],"false of the code (roots_aligned_wrong); true when the roots have the same name")
c("C35","proved",[("Corpus","set_relations_sorted set_relations_aliases concat_checked slice_concat setslice_self delslice_complement slice_exact delslice_exact setslice_exact mul_exact append_exact")],"corpora, graph pairs and relation lists as heap objects")
c("C36","proved",[("Corpus","pop_removes pop_wrong insert_ne_rmul_wrong")],"false of the code for pop's result, insert, != and n*corpus (pop_wrong, insert_ne_rmul_wrong)")
c("C37","proved",[("Corpus","purge_shares purge_idempotent purge_missing_raises purge_unaligned_pair")],"bank files exist or paths coincide; otherwise OSError (purge_missing_raises)")
c("C40","proved",[("Etree","equals_iff equals_refl equals_symm equals_trans equals_non_ascii_raises indent_respaced indent_idempotent indent_layout indent_not_equal")],"")
c("C59","proved",[("Corpus","corpus_eq_iff corpus_eq_meta_raises")],"")
c("C38","proved",[("Pgc","write_read write_read_banks pprint_read write_read_sparse node_pair_in_metadata empty_relation")],"the XML library's write and read is modelled as dropping empty texts; the path shown must lead back to the file (hypothesis files)")
c("C39","proved",[("Pgc","pairs_as_declared references_resolved dangling_reference relations_as_declared")],"")
c("C47","proved",[("Pgc","load_all_or_nothing sparse_full all_full none_stubs write_read_sparse self_aligned_unreadable self_aligned_half_loaded")],"")
c("C41","proved",[("AlignEval","counts_are_cardinalities common_le any_is_sum any_common_ge unknown_relation unequal_lengths")],"the relations do not contain the reserved one or the empty one")
c("C42","proved",[("AlignEval","measures_are beta_outside measures_range measures_swap f_score measures_perfect")],"exact numbers")
c("C43","proved",[("AlignEval","table_summary no_rows macro_between variances single_corpus overall sums_of_concatenation one_by_one_or_concatenated no_relations duplicate_relations")],"exact numbers")
c("C44","proved",[("PgcDiff","diff_partition diff_empty diff_exchange diff_lengths words_only_fails words_only_inverted restricted_lost")],"all relations compared, labels not empty, node ids numeric; restricted relations and words_only violate (restricted_lost, words_only_fails)")
c("C45","proved",[("Agreement","table_statistics cross_evaluation table_bounds exchanged_annotators single_annotator wrong_number default_names words_only_keeps_words")],"exact numbers, variances instead of standard deviations; annotator names distinct and not mean, SD or overall")
c("C51","proved",[("HitaextDoc","inOrder_perm inject_extract_n inject_extract_id extract_stable unknown_element number_zero unknown_method incomplete_link incomplete_id_link")],"elements are distinct objects")
c("C52","proved",[("IElemTree","document_text element_text ignored_text ignored_text_stale spans_nested spans_ordered numbering id_lookup no_alignments ignored_flags")],"")
c("C53","proved",[("TextAlign","no_cross scope_no_cross")],"for every descending sort, as ties are broken by object addresses")
c("C54","proved",[("TextAlign","threshold_keeps clear_removes")],"")
c("C55","proved",[("TextAlign","weighted_cosine_range weighted_cosine_value weighted_cosine_comm weighted_cosine_self weighted_cosine_zero")],"real numbers instead of floats")
c("C60","proved",[("TextAlign","align_sound align_corpus align_corpus_default ignored_aligned")],"exact for filters by score and focus tags that are no scope tags, links by number; sound for every filter; the claim about ignored subtrees is false of the code (ignored_aligned)")
c("C46","proved",[("Creation","token_diff creation_exact creation_broken numbered_links_fail")],"")
c("C49","proved",[("Stats","stats_exact unknown_relation identities percentage percentages_add banks_alone banks_alone_exact average_exact threshold_raises")],"exact numbers instead of floats")
c("C50","proved",[("PgcTools","split_covers split_count split_nothing join_concat join_split join_purge")],"")
c("C56","proved",[("PgcTools","chdir_exact chdir_undo chdir_empty")],"")
c("C48","proved",[("Graphml","sparse_eq_full sparse_missing sparse_string")],"For files without nested graphs; an example shows that nesting breaks it. Event handlers modelled over element trees; expat is not.")
c("C61","proved",[("GraphmlFile","file_means loads_iff fault_raised late_after_node late_after_edge defaults_ignored")],"Event handlers modelled over element trees; expat is not.")

c("C62","proved",[("CacheThreads","synchronized_serialises synchronized_finished synchronized_progress cache_serialisable memo_threads contains_not_serialisable")],"Interleaving at the level of Python statements that touch the cache; __contains__ is in the model of calls, keys is not. The memoised function itself is a value, computed in one step with the lock held.")
c("C63","proved",[("PtcEval","count_exact count_set linked_finite eval_labelled eval_unlabelled eval_length scores_range scores_exchange by_number by_number_full_marks")],"exact numbers; for alignments by number the property is violated (by_number, by_number_full_marks)")
c("C64","proved",[("PtcDiff","printed_exact printed_difference printed_nothing printed_exchange unknown_tag without_ids further_elements")],"violated for targets without ids and beyond the shorter document (without_ids, further_elements)")
c("C65","proved",[("StatsTable","write_read write_read_exact truncated read_errors rows_written overalls_written legenda_written init_created init_columns grow_rows unreadable")],"exact numbers instead of floats; float() without exponents, inf and nan; unreadable shows the limits")
c("C66","proved",[("HitaextFile","new_history document_history getters init_elems_exact init_twice validate_iff write_read new_unreadable element_ignored search_finds search_wrong missing_part")],"search_wrong: the search for a document ends with the corpus itself; the XML library's write and read is modelled as dropping empty texts")
c("C67","proved",[("StatsCorpus","run_renews first_run history incremental unchanged cut_off no_subs distinct_names file_names job_sound shared_name")],"the tables of pgc_stats, the empty tables and summarize are parameters; files in one directory, writing succeeds; shared_name shows the limit")
c("C68","proved",[("PtcChdir","new_path new_path_total again document_moved file_moved dry_run files_moved ruined not_again")],"a file is what is parsed from it; ruined and not_again show the limits")
c("C69","proved",[("PgcZip","archive_exact archive_content packs_iff archive_directory nothing_matched name_clash unpacked_reads unpacked_reads_none relaxed_same unused_bank_missing linked_bank_missing other_file_read")],"file systems, the XML reader and the graph bank reader are parameters; an archive is the list of its entries; the limits are theorems too")
c("C70","proved",[("RelPath","realpath_place bank_found bank_moved absolute_stays text_kept files_lead_back linked_corpus blank_lost unresolved_directory")],"os.path.realpath and relpath are modelled; links that lead nowhere give no path")
c("C71","proved",[("PgcCp","nothing_overwritten only_targets source_safe target_in_directory needs_directory bad_skipped all_copied same_name again copy_reads copies_read torn_target missing_banks")],"the paths and the XML library (its write and read drop empty texts) are parameters; reading without graphs; torn_target and missing_banks show the limits")
c("C72","proved",[("PtcConvert","to_ids writable_iff ids_designate same_alignment again to_numbers one_file script_fails not_identified")],"violated for the script as it is (script_fails); not_identified shows the limits; elements are distinct objects")
c("C73","proved",[("Phrases","extracted complete table_injective read_back delimiter_in_phrase unreadable not_ascii")],"reading the corpora is a parameter; delimiter_in_phrase, unreadable and not_ascii show the limits")
c("C74","proved",[("FromPtc","numbers in_order only_outputs all_made stops name_of own_input new_read from_text_corpus")],"what is in a text corpus or graph bank file is a parameter; the XML library as in C71; graphs with ids, banks that exist, names without white space at their ends")
c("C75","proved",[("AlignPrint","alignment_grid alignment_determined scores_grid scores_determined empty_fails scores_missing nw_printed sw_printed we_printed")],"elements are represented by their texts; exact numbers instead of floats")
c("C76","proved",[("EvalPrint","no_names table_printed evaluation_printed counts_readable percents_readable decimals_close matrix_printed matrix_missing agreement_printed")],
  "The square root of a variance and repr of a string are parameters; printing before run_eval or after a further add is not modelled.")
c("C77","proved",[("DiffPrint","report_printed diff_printed same_printed unicode_labels names_not_printed empty_comment refused missing_values")],"violated in part: the heads with corpus names and graph pair numbers are never written, a source label or relation that is not ASCII ends the report with a UnicodeError (a target label does not), and an empty comment element ends it with an AttributeError")
c("C78","proved",[("Pair","equal_iff equivalence equal_other too_deep cyclic unequal_identity in_list first_same count_same lists_equal in_set set_of sets_apart new_pair set_frame set_content unpacked copied repr_exact repr_quotes repr_too_deep str_succeeds str_ambiguous")],"violated for !=, sets and str (unequal_identity, sets_apart, str_ambiguous); pairs hold None, integers, strings and pairs; the recursion limit is counted in nested pairs")
c("C79","proved",[("MunkresFloat","complete complete_double optimal optimal_double exact_steps forever forever_double not_optimal_double")],"violated without the limits: with a float far above sys.maxint compute never returns (forever_double), and with large floats the assignment need not be minimal (not_optimal_double); overflow to inf and underflow are not modelled")
c("C80","proved",[("AlignFloat","nw_valid sw_valid we_limit we_valid nw_near sw_near we_near nw_double sw_double integers integers_double not_best_double")],"the best alignment need not be found with floats (not_best_double shows it); overflow to inf, nan and underflow are not modelled")
c("C81","proved",[("SimilarFloat","rounded_once rounded_once_many rounded_once_rouge float_coefficients ranking levenshtein_double sqrt_rounded cosine_range cosine_double gen_cosine_range gen_cosine_double lcs_range lcs_double rouge_l_float rouge_l_error rouge_l_near rouge_s_float rouge_s_near rouge_su_float doubles f_measure_above")],"overflow to inf and underflow are not modelled; the float is a rational rounded to 53 binary digits without limits to the exponent")
c("C82","proved",[("EvalFloat","table_scores empty_table perfect table_near variance_near agreement_table agreement_near full_agreement mean_above text_scores text_scores_near weighted_cosine weighted_cosine_self weighted_cosine_bound weighted_cosine_above")],"overflow to inf and underflow are not modelled")
c("C83","proved",[("CommandLine","conserved complete complete_dashes split_files missing help_version unknown ambiguous clean tools_wf attributes_set agreement_keywords file_list prefix_pair threshold_never threshold_works")],"mutually exclusive groups, sub-commands, choices and arguments from files are not modelled; the tools do not use the last four; violated for the threshold of pgc_stats (threshold_never) and the file of ptc_n_to_id (file_list)")
c("C84","proved",[("SplitJoin","split_files split_join wrong_order split_refused split_complete join_reads join_refused join_complete")],"names are compared as sequences of characters; messages, a full disk and glob itself (any list of files) are not modelled; violated beyond 9999 graph pairs (wrong_order)")
c("C85","proved",[("UsageHelp","declared usage_complete help_shows help_narrow column_unique tools_declared tools_usage tools_help")],"textwrap.wrap is a parameter (it breaks a text in lines of the width and loses nothing but white space); help texts with % are not covered (the tools have none); groups of one's own, suppressed arguments, choices, and tuples as metavars are not modelled; violated in narrow terminals (help_narrow), and for blank help texts and metavars with brackets (examples)")
c("C86","proved",[("CommandErrors","refused ambiguous_iff ambiguous_unique ends tools_plain tools_end tools_few")],"textwrap.wrap and repr are parameters; violated in part: the text called ignored after a letter that is no option lacks that letter, or is None (examples), -h fails in narrow terminals")
c("C87","proved",[("CacheKey","key_exact transparent same_name once expiry default_fail")],"Functions are deterministic, do not use the cache themselves; floats and objects as arguments are not modelled (two objects may have the same repr). Findings: functions of the same name in different modules that share a cache get each other's results; keywords func, self, key and generator are TypeErrors; with default_fail, memoised functions always raise KeyError")
c("C88","proved",[("MatrixPrint","raises shows told")],"matrices of integers; the logarithm is a parameter. Findings: a matrix with a zero or a negative entry cannot be printed (ValueError after the message), an empty row lacks its opening bracket")
c("C89","proved",[("MakeDirs","resolves grown present made success unnoticed deep")],"os.makedirs, os.mkdir and os.path.exists of Python 2.7 and POSIX are modelled, without limits on names and without other processes. Finding: the docstring promises that no exception is raised if the directory exists, but every OSError is swallowed (the handler has no raise): without permission, or below a file, makedirs returns and there is no directory")
c("C90","proved",[("FileGlob","form found times order")],"glob.glob and fnmatch of Python 2.7 are modelled for patterns without / and without classes [...] . Finding: a misspelt file name is passed over in silence, and a file that two patterns select is there twice")
