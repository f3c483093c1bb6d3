{
 "claims": [
  {
   "property": "C01",
   "status": "proved",
   "theorems": [
    "Verif.Props.Levenshtein.levenshtein_minimal"
   ],
   "note": "loop invariant + optimality over inductive edit scripts"
  },
  {
   "property": "C02",
   "status": "proved",
   "theorems": [
    "Verif.Props.Levenshtein.levenshtein_zero_iff",
    "Verif.Props.Levenshtein.levenshtein_symm",
    "Verif.Props.Levenshtein.levenshtein_triangle"
   ],
   "note": "metric laws, from minimality over edit scripts"
  },
  {
   "property": "C03",
   "status": "proved",
   "theorems": [
    "Verif.Props.Levenshtein.levenshtein_bounds",
    "Verif.Props.Levenshtein.normalized_value",
    "Verif.Props.Levenshtein.normalized_range",
    "Verif.Props.Levenshtein.normalized_symm"
   ],
   "note": "exact rationals in place of floats"
  },
  {
   "property": "C04",
   "status": "proved",
   "theorems": [
    "Verif.Props.Lcs.lcs_correct"
   ],
   "note": ""
  },
  {
   "property": "C05",
   "status": "proved",
   "theorems": [
    "Verif.Props.Lcs.lcs_length_symm",
    "Verif.Props.Lcs.normalized_lcs_props"
   ],
   "note": "exact rationals in place of floats"
  },
  {
   "property": "C06",
   "status": "proved",
   "theorems": [
    "Verif.Props.NGram.pad_length",
    "Verif.Props.NGram.n_gram_count",
    "Verif.Props.NGram.n_gram_nth",
    "Verif.Props.NGram.n_gram_complete",
    "Verif.Props.NGram.n_gram_mem_iff",
    "Verif.Props.NGram.n_gram_strings_eq",
    "Verif.Props.NGram.n_gram_range_nopad",
    "Verif.Props.NGram.n_gram_range_pad",
    "Verif.Props.NGram.n_gram_range_sizes"
   ],
   "note": ""
  },
  {
   "property": "C07",
   "status": "proved",
   "theorems": [
    "Verif.Props.NGram.skip_bigrams_eq",
    "Verif.Props.NGram.skipPositions_mem",
    "Verif.Props.NGram.skipPositions_nodup",
    "Verif.Props.NGram.skip_bigrams_count",
    "Verif.Props.NGram.skip_bigrams_zero",
    "Verif.Props.NGram.padded_skip_bigrams_eq"
   ],
   "note": ""
  },
  {
   "property": "C08",
   "status": "proved",
   "theorems": [
    "Verif.Props.Similar.dice_coefficient",
    "Verif.Props.Similar.jaccard_coefficient",
    "Verif.Props.Similar.tanimoto_coefficient",
    "Verif.Props.Similar.cosine_coefficient",
    "Verif.Props.Similar.overlap_min_coefficient",
    "Verif.Props.Similar.overlap_max_coefficient",
    "Verif.Props.Similar.match_counts",
    "Verif.Props.Similar.coefficient_values"
   ],
   "note": "exact numbers in place of floats"
  },
  {
   "property": "C09",
   "status": "proved",
   "theorems": [
    "Verif.Props.Similar.jaccard_eq_one",
    "Verif.Props.Similar.dice_eq_one",
    "Verif.Props.Similar.tanimoto_eq_one",
    "Verif.Props.Similar.overlap_max_eq_one",
    "Verif.Props.Similar.cosine_eq_one",
    "Verif.Props.Similar.overlap_min_eq_one",
    "Verif.Props.Similar.dice_not_one_on_identical"
   ],
   "note": "full claim of the documentation is false of the code: counterexample dice_not_one_on_identical; the other theorems are for duplicate-free inputs"
  },
  {
   "property": "C10",
   "status": "proved",
   "theorems": [
    "Verif.Props.Similar.gen_dice_range",
    "Verif.Props.Similar.gen_jaccard_range",
    "Verif.Props.Similar.gen_cosine_range",
    "Verif.Props.Similar.gen_cosine_singleton_exceeds",
    "Verif.Props.Similar.gen_two",
    "Verif.Props.Similar.gen_values"
   ],
   "note": "generalised cosine leaves [0,1] on a one-element list (gen_cosine_singleton_exceeds)"
  },
  {
   "property": "C11",
   "status": "proved",
   "theorems": [
    "Verif.Props.Rouge.rouge_n_value",
    "Verif.Props.Rouge.rouge_n_range",
    "Verif.Props.Rouge.rouge_n_nonneg",
    "Verif.Props.Rouge.rouge_n_exceeds_one",
    "Verif.Props.Rouge.rouge_n_self"
   ],
   "note": "upper bound false without clipping (rouge_n_exceeds_one)"
  },
  {
   "property": "C12",
   "status": "proved",
   "theorems": [
    "Verif.Props.Rouge.rouge_l_value",
    "Verif.Props.Rouge.rouge_s_value",
    "Verif.Props.Rouge.rouge_su_value",
    "Verif.Props.Rouge.rouge_l_range",
    "Verif.Props.Rouge.rouge_l_error",
    "Verif.Props.Rouge.rouge_l_symm",
    "Verif.Props.Rouge.rouge_l_self",
    "Verif.Props.Rouge.rouge_s_range",
    "Verif.Props.Rouge.rouge_s_error",
    "Verif.Props.Rouge.rouge_s_symm",
    "Verif.Props.Rouge.rouge_s_self",
    "Verif.Props.Rouge.rouge_s_self_iff",
    "Verif.Props.Rouge.rouge_s_self_not_one",
    "Verif.Props.Rouge.rouge_su_range"
   ],
   "note": "rouge_s on identical input is 1 only for duplicate-free skip bigrams (rouge_s_self_not_one)"
  },
  {
   "property": "C13",
   "status": "proved",
   "theorems": [
    "Verif.Props.Median.median_minimal",
    "Verif.Props.Median.median_empty"
   ],
   "note": ""
  },
  {
   "property": "C14",
   "status": "proved",
   "theorems": [
    "Verif.Props.NW.needleman_wunsch_optimal",
    "Verif.Props.NW.nw_nonuniform_not_optimal"
   ],
   "note": "optimal for constant gap costs; false for element-dependent costs (nw_nonuniform_not_optimal)"
  },
  {
   "property": "C15",
   "status": "proved",
   "theorems": [
    "Verif.Props.NW.needleman_wunsch_valid",
    "Verif.Props.NW.needleman_wunsch_matrix",
    "Verif.Props.NW.needleman_wunsch_optimal"
   ],
   "note": "for constant gap costs"
  },
  {
   "property": "C16",
   "status": "proved",
   "theorems": [
    "Verif.Props.SW.smith_waterman_optimal",
    "Verif.Props.SW.smith_waterman_matrix",
    "Verif.Props.SW.smith_waterman_total",
    "Verif.Props.SW.sw_positive_gap_not_optimal"
   ],
   "note": "optimality needs gap costs <= 0, counterexample for positive ones"
  },
  {
   "property": "C17",
   "status": "proved",
   "theorems": [
    "Verif.Props.SW.waterman_eggert_limit",
    "Verif.Props.SW.waterman_eggert_valid",
    "Verif.Props.SW.waterman_eggert_first_optimal",
    "Verif.Props.SW.waterman_eggert_prefix",
    "Verif.Props.SW.waterman_eggert_consecutive_disjoint",
    "Verif.Props.SW.waterman_eggert_scores",
    "Verif.Props.SW.waterman_eggert_not_positive",
    "Verif.Props.SW.waterman_eggert_diverges",
    "Verif.Props.SW.waterman_eggert_intersecting"
   ],
   "note": "documented non-intersection is false (waterman_eggert_intersecting), and the search may not terminate (waterman_eggert_diverges)"
  },
  {
   "property": "C18",
   "status": "proved",
   "theorems": [
    "Verif.Props.TfIdf.term_frequencies_correct",
    "Verif.Props.TfIdf.document_frequencies_correct",
    "Verif.Props.TfIdf.tf_idf_value",
    "Verif.Props.TfIdf.idf_value",
    "Verif.Props.TfIdf.idf_bounds",
    "Verif.Props.TfIdf.weight_bounds",
    "Verif.Props.TfIdf.tf_sum_one",
    "Verif.Props.TfIdf.tf_idf_one_document"
   ],
   "note": "real numbers in place of floats"
  },
  {
   "property": "C19",
   "status": "proved",
   "theorems": [
    "Verif.Props.Number.spell_words",
    "Verif.Props.Number.spell_words_hundreds",
    "Verif.Props.Number.spell_injective_iff",
    "Verif.Props.Number.spell_injective",
    "Verif.Props.Number.spell_domain",
    "Verif.Props.Number.spell_not_injective"
   ],
   "note": "the words equal an independent specification for all n < 10^24; which numbers are spelled alike is characterised exactly; IndexError from 10^24 on"
  },
  {
   "property": "C20",
   "status": "proved",
   "theorems": [
    "Verif.Props.Munkres.munkres_optimal",
    "Verif.Props.Munkres.munkres_empty",
    "Verif.Props.Munkres.make_cost_matrix_entries"
   ],
   "note": "exact rationals in place of floats; rectangular matrices (the documented domain); includes termination and absence of index errors in the path array"
  },
  {
   "property": "C21",
   "status": "proved",
   "theorems": [
    "Verif.Props.ODict.ordered_dict_refines",
    "Verif.Props.ODict.fromkeys_order"
   ],
   "note": "refinement to a list of entries over all histories"
  },
  {
   "property": "C22",
   "status": "proved",
   "theorems": [
    "Verif.Props.Counter.counter_keys_unique",
    "Verif.Props.Counter.counter_update",
    "Verif.Props.Counter.counter_of_iterable",
    "Verif.Props.Counter.counter_update_mapping",
    "Verif.Props.Counter.counter_copy",
    "Verif.Props.Counter.counter_del",
    "Verif.Props.Counter.counter_operators",
    "Verif.Props.Counter.counter_elements",
    "Verif.Props.Counter.elements_of_counter",
    "Verif.Props.Counter.most_common_all",
    "Verif.Props.Counter.most_common_n"
   ],
   "note": ""
  },
  {
   "property": "C23",
   "status": "proved",
   "theorems": [
    "Verif.Props.GenericCache.cache_size_bounded",
    "Verif.Props.GenericCache.cache_limit"
   ],
   "note": "any history, re-inserts included"
  },
  {
   "property": "C24",
   "status": "proved",
   "theorems": [
    "Verif.Props.GenericCache.cache_refines",
    "Verif.Props.GenericCache.cache_recency_order",
    "Verif.Props.GenericCache.cache_evicts_least_recent",
    "Verif.Props.GenericCache.cache_retains"
   ],
   "note": "for histories without re-insertion of a live key"
  },
  {
   "property": "C25",
   "status": "proved",
   "theorems": [
    "Verif.Props.GenericCache.cache_refines",
    "Verif.Props.GenericCache.cache_insert_diverges"
   ],
   "note": "terminates for histories without re-insertion of a live key; false otherwise (cache_insert_diverges)"
  },
  {
   "property": "C26",
   "status": "proved",
   "theorems": [
    "Verif.Props.GenericCache.memo_transparent",
    "Verif.Props.GenericCache.memo_default_fail"
   ],
   "note": "caches with default_fail off (the default); with it on the first call raises (memo_default_fail)"
  },
  {
   "property": "C27",
   "status": "proved",
   "theorems": [
    "Verif.Props.Graph.odigraph_refines",
    "Verif.Props.Graph.odigraph_views_agree"
   ],
   "note": "every history of the mutators; nodes and edge dictionaries as heap objects"
  },
  {
   "property": "C28",
   "status": "proved",
   "theorems": [
    "Verif.Props.DaesoGraph.terminal_yield_reachable",
    "Verif.Props.DaesoGraph.terminal_yield_tree",
    "Verif.Props.DaesoGraph.isTerminal_exact",
    "Verif.Props.DaesoGraph.isTerminal_iff",
    "Verif.Props.DaesoGraph.terminals_exact"
   ],
   "note": "every graph built through the API; start node in the graph"
  },
  {
   "property": "C29",
   "status": "proved",
   "theorems": [
    "Verif.Props.DaesoGraph.add_edge_checked",
    "Verif.Props.DaesoGraph.edges_join_nodes",
    "Verif.Props.DaesoGraph.add_edges_from_prefix"
   ],
   "note": ""
  },
  {
   "property": "C30",
   "status": "proved",
   "theorems": [
    "Verif.Props.DaesoGraph.node_token_string_roundtrip",
    "Verif.Props.DaesoGraph.node_tokens_roundtrip",
    "Verif.Props.DaesoGraph.node_tokens_empty",
    "Verif.Props.DaesoGraph.graph_token_string_roundtrip"
   ],
   "note": "strings as lists of characters; any white space test that includes the space"
  },
  {
   "property": "C31",
   "status": "proved",
   "theorems": [
    "Verif.Props.GraphPair.mapping_refines"
   ],
   "note": "every history, deep copies included; source and target names may coincide; networkx DiGraph modelled from its documented behaviour"
  },
  {
   "property": "C32",
   "status": "proved",
   "theorems": [
    "Verif.Props.GraphPair.matching_refines",
    "Verif.Props.GraphPair.matching_one_to_one",
    "Verif.Props.GraphPair.matching_partners"
   ],
   "note": ""
  },
  {
   "property": "C33",
   "status": "proved",
   "theorems": [
    "Verif.Props.GraphPair.alignments_equal_iff",
    "Verif.Props.GraphPair.alignments_equal_of_same_map"
   ],
   "note": ""
  },
  {
   "property": "C34",
   "status": "proved",
   "theorems": [
    "Verif.Props.GraphPair.roots_aligned_computes",
    "Verif.Props.GraphPair.roots_aligned_wrong"
   ],
   "note": "false of the code (roots_aligned_wrong); true when the roots have the same name"
  },
  {
   "property": "C35",
   "status": "proved",
   "theorems": [
    "Verif.Props.Corpus.set_relations_sorted",
    "Verif.Props.Corpus.set_relations_aliases",
    "Verif.Props.Corpus.concat_checked",
    "Verif.Props.Corpus.slice_concat",
    "Verif.Props.Corpus.setslice_self",
    "Verif.Props.Corpus.delslice_complement",
    "Verif.Props.Corpus.slice_exact",
    "Verif.Props.Corpus.delslice_exact",
    "Verif.Props.Corpus.setslice_exact",
    "Verif.Props.Corpus.mul_exact",
    "Verif.Props.Corpus.append_exact"
   ],
   "note": "corpora, graph pairs and relation lists as heap objects"
  },
  {
   "property": "C36",
   "status": "proved",
   "theorems": [
    "Verif.Props.Corpus.pop_removes",
    "Verif.Props.Corpus.pop_wrong",
    "Verif.Props.Corpus.insert_ne_rmul_wrong"
   ],
   "note": "false of the code for pop's result, insert, != and n*corpus (pop_wrong, insert_ne_rmul_wrong)"
  },
  {
   "property": "C37",
   "status": "proved",
   "theorems": [
    "Verif.Props.Corpus.purge_shares",
    "Verif.Props.Corpus.purge_idempotent",
    "Verif.Props.Corpus.purge_missing_raises",
    "Verif.Props.Corpus.purge_unaligned_pair"
   ],
   "note": "bank files exist or paths coincide; otherwise OSError (purge_missing_raises)"
  },
  {
   "property": "C38",
   "status": "proved",
   "theorems": [
    "Verif.Props.Pgc.write_read",
    "Verif.Props.Pgc.write_read_banks",
    "Verif.Props.Pgc.pprint_read",
    "Verif.Props.Pgc.write_read_sparse",
    "Verif.Props.Pgc.node_pair_in_metadata",
    "Verif.Props.Pgc.empty_relation"
   ],
   "note": "the XML library's write and read is modelled as dropping empty texts; the path shown must lead back to the file (hypothesis files)"
  },
  {
   "property": "C39",
   "status": "proved",
   "theorems": [
    "Verif.Props.Pgc.pairs_as_declared",
    "Verif.Props.Pgc.references_resolved",
    "Verif.Props.Pgc.dangling_reference",
    "Verif.Props.Pgc.relations_as_declared"
   ],
   "note": ""
  },
  {
   "property": "C40",
   "status": "proved",
   "theorems": [
    "Verif.Props.Etree.equals_iff",
    "Verif.Props.Etree.equals_refl",
    "Verif.Props.Etree.equals_symm",
    "Verif.Props.Etree.equals_trans",
    "Verif.Props.Etree.equals_non_ascii_raises",
    "Verif.Props.Etree.indent_respaced",
    "Verif.Props.Etree.indent_idempotent",
    "Verif.Props.Etree.indent_layout",
    "Verif.Props.Etree.indent_not_equal"
   ],
   "note": ""
  },
  {
   "property": "C41",
   "status": "proved",
   "theorems": [
    "Verif.Props.AlignEval.counts_are_cardinalities",
    "Verif.Props.AlignEval.common_le",
    "Verif.Props.AlignEval.any_is_sum",
    "Verif.Props.AlignEval.any_common_ge",
    "Verif.Props.AlignEval.unknown_relation",
    "Verif.Props.AlignEval.unequal_lengths"
   ],
   "note": "the relations do not contain the reserved one or the empty one"
  },
  {
   "property": "C42",
   "status": "proved",
   "theorems": [
    "Verif.Props.AlignEval.measures_are",
    "Verif.Props.AlignEval.beta_outside",
    "Verif.Props.AlignEval.measures_range",
    "Verif.Props.AlignEval.measures_swap",
    "Verif.Props.AlignEval.f_score",
    "Verif.Props.AlignEval.measures_perfect"
   ],
   "note": "exact numbers"
  },
  {
   "property": "C43",
   "status": "proved",
   "theorems": [
    "Verif.Props.AlignEval.table_summary",
    "Verif.Props.AlignEval.no_rows",
    "Verif.Props.AlignEval.macro_between",
    "Verif.Props.AlignEval.variances",
    "Verif.Props.AlignEval.single_corpus",
    "Verif.Props.AlignEval.overall",
    "Verif.Props.AlignEval.sums_of_concatenation",
    "Verif.Props.AlignEval.one_by_one_or_concatenated",
    "Verif.Props.AlignEval.no_relations",
    "Verif.Props.AlignEval.duplicate_relations"
   ],
   "note": "exact numbers"
  },
  {
   "property": "C44",
   "status": "proved",
   "theorems": [
    "Verif.Props.PgcDiff.diff_partition",
    "Verif.Props.PgcDiff.diff_empty",
    "Verif.Props.PgcDiff.diff_exchange",
    "Verif.Props.PgcDiff.diff_lengths",
    "Verif.Props.PgcDiff.words_only_fails",
    "Verif.Props.PgcDiff.words_only_inverted",
    "Verif.Props.PgcDiff.restricted_lost"
   ],
   "note": "all relations compared, labels not empty, node ids numeric; restricted relations and words_only violate (restricted_lost, words_only_fails)"
  },
  {
   "property": "C45",
   "status": "proved",
   "theorems": [
    "Verif.Props.Agreement.table_statistics",
    "Verif.Props.Agreement.cross_evaluation",
    "Verif.Props.Agreement.table_bounds",
    "Verif.Props.Agreement.exchanged_annotators",
    "Verif.Props.Agreement.single_annotator",
    "Verif.Props.Agreement.wrong_number",
    "Verif.Props.Agreement.default_names",
    "Verif.Props.Agreement.words_only_keeps_words"
   ],
   "note": "exact numbers, variances instead of standard deviations; annotator names distinct and not mean, SD or overall"
  },
  {
   "property": "C46",
   "status": "proved",
   "theorems": [
    "Verif.Props.Creation.token_diff",
    "Verif.Props.Creation.creation_exact",
    "Verif.Props.Creation.creation_broken",
    "Verif.Props.Creation.numbered_links_fail"
   ],
   "note": ""
  },
  {
   "property": "C47",
   "status": "proved",
   "theorems": [
    "Verif.Props.Pgc.load_all_or_nothing",
    "Verif.Props.Pgc.sparse_full",
    "Verif.Props.Pgc.all_full",
    "Verif.Props.Pgc.none_stubs",
    "Verif.Props.Pgc.write_read_sparse",
    "Verif.Props.Pgc.self_aligned_unreadable",
    "Verif.Props.Pgc.self_aligned_half_loaded"
   ],
   "note": ""
  },
  {
   "property": "C48",
   "status": "proved",
   "theorems": [
    "Verif.Props.Graphml.sparse_eq_full",
    "Verif.Props.Graphml.sparse_missing",
    "Verif.Props.Graphml.sparse_string"
   ],
   "note": "For files without nested graphs; an example shows that nesting breaks it. Event handlers modelled over element trees; expat is not."
  },
  {
   "property": "C49",
   "status": "proved",
   "theorems": [
    "Verif.Props.Stats.stats_exact",
    "Verif.Props.Stats.unknown_relation",
    "Verif.Props.Stats.identities",
    "Verif.Props.Stats.percentage",
    "Verif.Props.Stats.percentages_add",
    "Verif.Props.Stats.banks_alone",
    "Verif.Props.Stats.banks_alone_exact",
    "Verif.Props.Stats.average_exact",
    "Verif.Props.Stats.threshold_raises"
   ],
   "note": "exact numbers instead of floats"
  },
  {
   "property": "C50",
   "status": "proved",
   "theorems": [
    "Verif.Props.PgcTools.split_covers",
    "Verif.Props.PgcTools.split_count",
    "Verif.Props.PgcTools.split_nothing",
    "Verif.Props.PgcTools.join_concat",
    "Verif.Props.PgcTools.join_split",
    "Verif.Props.PgcTools.join_purge"
   ],
   "note": ""
  },
  {
   "property": "C51",
   "status": "proved",
   "theorems": [
    "Verif.Props.HitaextDoc.inOrder_perm",
    "Verif.Props.HitaextDoc.inject_extract_n",
    "Verif.Props.HitaextDoc.inject_extract_id",
    "Verif.Props.HitaextDoc.extract_stable",
    "Verif.Props.HitaextDoc.unknown_element",
    "Verif.Props.HitaextDoc.number_zero",
    "Verif.Props.HitaextDoc.unknown_method",
    "Verif.Props.HitaextDoc.incomplete_link",
    "Verif.Props.HitaextDoc.incomplete_id_link"
   ],
   "note": "elements are distinct objects"
  },
  {
   "property": "C52",
   "status": "proved",
   "theorems": [
    "Verif.Props.IElemTree.document_text",
    "Verif.Props.IElemTree.element_text",
    "Verif.Props.IElemTree.ignored_text",
    "Verif.Props.IElemTree.ignored_text_stale",
    "Verif.Props.IElemTree.spans_nested",
    "Verif.Props.IElemTree.spans_ordered",
    "Verif.Props.IElemTree.numbering",
    "Verif.Props.IElemTree.id_lookup",
    "Verif.Props.IElemTree.no_alignments",
    "Verif.Props.IElemTree.ignored_flags"
   ],
   "note": ""
  },
  {
   "property": "C53",
   "status": "proved",
   "theorems": [
    "Verif.Props.TextAlign.no_cross",
    "Verif.Props.TextAlign.scope_no_cross"
   ],
   "note": "for every descending sort, as ties are broken by object addresses"
  },
  {
   "property": "C54",
   "status": "proved",
   "theorems": [
    "Verif.Props.TextAlign.threshold_keeps",
    "Verif.Props.TextAlign.clear_removes"
   ],
   "note": ""
  },
  {
   "property": "C55",
   "status": "proved",
   "theorems": [
    "Verif.Props.TextAlign.weighted_cosine_range",
    "Verif.Props.TextAlign.weighted_cosine_value",
    "Verif.Props.TextAlign.weighted_cosine_comm",
    "Verif.Props.TextAlign.weighted_cosine_self",
    "Verif.Props.TextAlign.weighted_cosine_zero"
   ],
   "note": "real numbers instead of floats"
  },
  {
   "property": "C56",
   "status": "proved",
   "theorems": [
    "Verif.Props.PgcTools.chdir_exact",
    "Verif.Props.PgcTools.chdir_undo",
    "Verif.Props.PgcTools.chdir_empty"
   ],
   "note": ""
  },
  {
   "property": "C57",
   "status": "proved",
   "theorems": [
    "Verif.Props.LRUStock.lru_list_integrity",
    "Verif.Props.LRUStock.lru_double_add"
   ],
   "note": "pointer-level model"
  },
  {
   "property": "C58",
   "status": "proved",
   "theorems": [
    "Verif.Props.Graph.add_node_independent",
    "Verif.Props.Graph.attributes_independent",
    "Verif.Props.Graph.add_nodes_from_shares",
    "Verif.Props.Graph.add_node_dict_shares"
   ],
   "note": "proved for histories without add_nodes_from of several nodes and without shared attr_dict; false otherwise (add_nodes_from_shares, add_node_dict_shares)"
  },
  {
   "property": "C59",
   "status": "proved",
   "theorems": [
    "Verif.Props.Corpus.corpus_eq_iff",
    "Verif.Props.Corpus.corpus_eq_meta_raises"
   ],
   "note": ""
  },
  {
   "property": "C60",
   "status": "proved",
   "theorems": [
    "Verif.Props.TextAlign.align_sound",
    "Verif.Props.TextAlign.align_corpus",
    "Verif.Props.TextAlign.align_corpus_default",
    "Verif.Props.TextAlign.ignored_aligned"
   ],
   "note": "exact for filters by score and focus tags that are no scope tags, links by number; sound for every filter; the claim about ignored subtrees is false of the code (ignored_aligned)"
  },
  {
   "property": "C61",
   "status": "proved",
   "theorems": [
    "Verif.Props.GraphmlFile.file_means",
    "Verif.Props.GraphmlFile.loads_iff",
    "Verif.Props.GraphmlFile.fault_raised",
    "Verif.Props.GraphmlFile.late_after_node",
    "Verif.Props.GraphmlFile.late_after_edge",
    "Verif.Props.GraphmlFile.defaults_ignored"
   ],
   "note": "Event handlers modelled over element trees; expat is not."
  },
  {
   "property": "C62",
   "status": "proved",
   "theorems": [
    "Verif.Props.CacheThreads.synchronized_serialises",
    "Verif.Props.CacheThreads.synchronized_finished",
    "Verif.Props.CacheThreads.synchronized_progress",
    "Verif.Props.CacheThreads.cache_serialisable",
    "Verif.Props.CacheThreads.memo_threads",
    "Verif.Props.CacheThreads.contains_not_serialisable"
   ],
   "note": "Interleaving at the level of Python statements that touch the cache; __contains__ is in the model of calls, keys is not. The memoised function itself is a value, computed in one step with the lock held."
  },
  {
   "property": "C63",
   "status": "proved",
   "theorems": [
    "Verif.Props.PtcEval.count_exact",
    "Verif.Props.PtcEval.count_set",
    "Verif.Props.PtcEval.linked_finite",
    "Verif.Props.PtcEval.eval_labelled",
    "Verif.Props.PtcEval.eval_unlabelled",
    "Verif.Props.PtcEval.eval_length",
    "Verif.Props.PtcEval.scores_range",
    "Verif.Props.PtcEval.scores_exchange",
    "Verif.Props.PtcEval.by_number",
    "Verif.Props.PtcEval.by_number_full_marks"
   ],
   "note": "exact numbers; for alignments by number the property is violated (by_number, by_number_full_marks)"
  },
  {
   "property": "C64",
   "status": "proved",
   "theorems": [
    "Verif.Props.PtcDiff.printed_exact",
    "Verif.Props.PtcDiff.printed_difference",
    "Verif.Props.PtcDiff.printed_nothing",
    "Verif.Props.PtcDiff.printed_exchange",
    "Verif.Props.PtcDiff.unknown_tag",
    "Verif.Props.PtcDiff.without_ids",
    "Verif.Props.PtcDiff.further_elements"
   ],
   "note": "violated for targets without ids and beyond the shorter document (without_ids, further_elements)"
  },
  {
   "property": "C65",
   "status": "proved",
   "theorems": [
    "Verif.Props.StatsTable.write_read",
    "Verif.Props.StatsTable.write_read_exact",
    "Verif.Props.StatsTable.truncated",
    "Verif.Props.StatsTable.read_errors",
    "Verif.Props.StatsTable.rows_written",
    "Verif.Props.StatsTable.overalls_written",
    "Verif.Props.StatsTable.legenda_written",
    "Verif.Props.StatsTable.init_created",
    "Verif.Props.StatsTable.init_columns",
    "Verif.Props.StatsTable.grow_rows",
    "Verif.Props.StatsTable.unreadable"
   ],
   "note": "exact numbers instead of floats; float() without exponents, inf and nan; unreadable shows the limits"
  },
  {
   "property": "C66",
   "status": "proved",
   "theorems": [
    "Verif.Props.HitaextFile.new_history",
    "Verif.Props.HitaextFile.document_history",
    "Verif.Props.HitaextFile.getters",
    "Verif.Props.HitaextFile.init_elems_exact",
    "Verif.Props.HitaextFile.init_twice",
    "Verif.Props.HitaextFile.validate_iff",
    "Verif.Props.HitaextFile.write_read",
    "Verif.Props.HitaextFile.new_unreadable",
    "Verif.Props.HitaextFile.element_ignored",
    "Verif.Props.HitaextFile.search_finds",
    "Verif.Props.HitaextFile.search_wrong",
    "Verif.Props.HitaextFile.missing_part"
   ],
   "note": "search_wrong: the search for a document ends with the corpus itself; the XML library's write and read is modelled as dropping empty texts"
  },
  {
   "property": "C67",
   "status": "proved",
   "theorems": [
    "Verif.Props.StatsCorpus.run_renews",
    "Verif.Props.StatsCorpus.first_run",
    "Verif.Props.StatsCorpus.history",
    "Verif.Props.StatsCorpus.incremental",
    "Verif.Props.StatsCorpus.unchanged",
    "Verif.Props.StatsCorpus.cut_off",
    "Verif.Props.StatsCorpus.no_subs",
    "Verif.Props.StatsCorpus.distinct_names",
    "Verif.Props.StatsCorpus.file_names",
    "Verif.Props.StatsCorpus.job_sound",
    "Verif.Props.StatsCorpus.shared_name"
   ],
   "note": "the tables of pgc_stats, the empty tables and summarize are parameters; files in one directory, writing succeeds; shared_name shows the limit"
  },
  {
   "property": "C68",
   "status": "proved",
   "theorems": [
    "Verif.Props.PtcChdir.new_path",
    "Verif.Props.PtcChdir.new_path_total",
    "Verif.Props.PtcChdir.again",
    "Verif.Props.PtcChdir.document_moved",
    "Verif.Props.PtcChdir.file_moved",
    "Verif.Props.PtcChdir.dry_run",
    "Verif.Props.PtcChdir.files_moved",
    "Verif.Props.PtcChdir.ruined",
    "Verif.Props.PtcChdir.not_again"
   ],
   "note": "a file is what is parsed from it; ruined and not_again show the limits"
  },
  {
   "property": "C69",
   "status": "proved",
   "theorems": [
    "Verif.Props.PgcZip.archive_exact",
    "Verif.Props.PgcZip.archive_content",
    "Verif.Props.PgcZip.packs_iff",
    "Verif.Props.PgcZip.archive_directory",
    "Verif.Props.PgcZip.nothing_matched",
    "Verif.Props.PgcZip.name_clash",
    "Verif.Props.PgcZip.unpacked_reads",
    "Verif.Props.PgcZip.unpacked_reads_none",
    "Verif.Props.PgcZip.relaxed_same",
    "Verif.Props.PgcZip.unused_bank_missing",
    "Verif.Props.PgcZip.linked_bank_missing",
    "Verif.Props.PgcZip.other_file_read"
   ],
   "note": "file systems, the XML reader and the graph bank reader are parameters; an archive is the list of its entries; the limits are theorems too"
  },
  {
   "property": "C70",
   "status": "proved",
   "theorems": [
    "Verif.Props.RelPath.realpath_place",
    "Verif.Props.RelPath.bank_found",
    "Verif.Props.RelPath.bank_moved",
    "Verif.Props.RelPath.absolute_stays",
    "Verif.Props.RelPath.text_kept",
    "Verif.Props.RelPath.files_lead_back",
    "Verif.Props.RelPath.linked_corpus",
    "Verif.Props.RelPath.blank_lost",
    "Verif.Props.RelPath.unresolved_directory"
   ],
   "note": "os.path.realpath and relpath are modelled; links that lead nowhere give no path"
  },
  {
   "property": "C71",
   "status": "proved",
   "theorems": [
    "Verif.Props.PgcCp.nothing_overwritten",
    "Verif.Props.PgcCp.only_targets",
    "Verif.Props.PgcCp.source_safe",
    "Verif.Props.PgcCp.target_in_directory",
    "Verif.Props.PgcCp.needs_directory",
    "Verif.Props.PgcCp.bad_skipped",
    "Verif.Props.PgcCp.all_copied",
    "Verif.Props.PgcCp.same_name",
    "Verif.Props.PgcCp.again",
    "Verif.Props.PgcCp.copy_reads",
    "Verif.Props.PgcCp.copies_read",
    "Verif.Props.PgcCp.torn_target",
    "Verif.Props.PgcCp.missing_banks"
   ],
   "note": "the paths and the XML library (its write and read drop empty texts) are parameters; reading without graphs; torn_target and missing_banks show the limits"
  },
  {
   "property": "C72",
   "status": "proved",
   "theorems": [
    "Verif.Props.PtcConvert.to_ids",
    "Verif.Props.PtcConvert.writable_iff",
    "Verif.Props.PtcConvert.ids_designate",
    "Verif.Props.PtcConvert.same_alignment",
    "Verif.Props.PtcConvert.again",
    "Verif.Props.PtcConvert.to_numbers",
    "Verif.Props.PtcConvert.one_file",
    "Verif.Props.PtcConvert.script_fails",
    "Verif.Props.PtcConvert.not_identified"
   ],
   "note": "violated for the script as it is (script_fails); not_identified shows the limits; elements are distinct objects"
  },
  {
   "property": "C73",
   "status": "proved",
   "theorems": [
    "Verif.Props.Phrases.extracted",
    "Verif.Props.Phrases.complete",
    "Verif.Props.Phrases.table_injective",
    "Verif.Props.Phrases.read_back",
    "Verif.Props.Phrases.delimiter_in_phrase",
    "Verif.Props.Phrases.unreadable",
    "Verif.Props.Phrases.not_ascii"
   ],
   "note": "reading the corpora is a parameter; delimiter_in_phrase, unreadable and not_ascii show the limits"
  },
  {
   "property": "C74",
   "status": "proved",
   "theorems": [
    "Verif.Props.FromPtc.numbers",
    "Verif.Props.FromPtc.in_order",
    "Verif.Props.FromPtc.only_outputs",
    "Verif.Props.FromPtc.all_made",
    "Verif.Props.FromPtc.stops",
    "Verif.Props.FromPtc.name_of",
    "Verif.Props.FromPtc.own_input",
    "Verif.Props.FromPtc.new_read",
    "Verif.Props.FromPtc.from_text_corpus"
   ],
   "note": "what is in a text corpus or graph bank file is a parameter; the XML library as in C71; graphs with ids, banks that exist, names without white space at their ends"
  },
  {
   "property": "C75",
   "status": "proved",
   "theorems": [
    "Verif.Props.AlignPrint.alignment_grid",
    "Verif.Props.AlignPrint.alignment_determined",
    "Verif.Props.AlignPrint.scores_grid",
    "Verif.Props.AlignPrint.scores_determined",
    "Verif.Props.AlignPrint.empty_fails",
    "Verif.Props.AlignPrint.scores_missing",
    "Verif.Props.AlignPrint.nw_printed",
    "Verif.Props.AlignPrint.sw_printed",
    "Verif.Props.AlignPrint.we_printed"
   ],
   "note": "elements are represented by their texts; exact numbers instead of floats"
  },
  {
   "property": "C76",
   "status": "proved",
   "theorems": [
    "Verif.Props.EvalPrint.no_names",
    "Verif.Props.EvalPrint.table_printed",
    "Verif.Props.EvalPrint.evaluation_printed",
    "Verif.Props.EvalPrint.counts_readable",
    "Verif.Props.EvalPrint.percents_readable",
    "Verif.Props.EvalPrint.decimals_close",
    "Verif.Props.EvalPrint.matrix_printed",
    "Verif.Props.EvalPrint.matrix_missing",
    "Verif.Props.EvalPrint.agreement_printed"
   ],
   "note": "The square root of a variance and repr of a string are parameters; printing before run_eval or after a further add is not modelled."
  },
  {
   "property": "C77",
   "status": "proved",
   "theorems": [
    "Verif.Props.DiffPrint.report_printed",
    "Verif.Props.DiffPrint.diff_printed",
    "Verif.Props.DiffPrint.same_printed",
    "Verif.Props.DiffPrint.unicode_labels",
    "Verif.Props.DiffPrint.names_not_printed",
    "Verif.Props.DiffPrint.empty_comment",
    "Verif.Props.DiffPrint.refused",
    "Verif.Props.DiffPrint.missing_values"
   ],
   "note": "violated in part: the heads with corpus names and graph pair numbers are never written, a source label or relation that is not ASCII ends the report with a UnicodeError (a target label does not), and an empty comment element ends it with an AttributeError"
  },
  {
   "property": "C78",
   "status": "proved",
   "theorems": [
    "Verif.Props.Pair.equal_iff",
    "Verif.Props.Pair.equivalence",
    "Verif.Props.Pair.equal_other",
    "Verif.Props.Pair.too_deep",
    "Verif.Props.Pair.cyclic",
    "Verif.Props.Pair.unequal_identity",
    "Verif.Props.Pair.in_list",
    "Verif.Props.Pair.first_same",
    "Verif.Props.Pair.count_same",
    "Verif.Props.Pair.lists_equal",
    "Verif.Props.Pair.in_set",
    "Verif.Props.Pair.set_of",
    "Verif.Props.Pair.sets_apart",
    "Verif.Props.Pair.new_pair",
    "Verif.Props.Pair.set_frame",
    "Verif.Props.Pair.set_content",
    "Verif.Props.Pair.unpacked",
    "Verif.Props.Pair.copied",
    "Verif.Props.Pair.repr_exact",
    "Verif.Props.Pair.repr_quotes",
    "Verif.Props.Pair.repr_too_deep",
    "Verif.Props.Pair.str_succeeds",
    "Verif.Props.Pair.str_ambiguous"
   ],
   "note": "violated for !=, sets and str (unequal_identity, sets_apart, str_ambiguous); pairs hold None, integers, strings and pairs; the recursion limit is counted in nested pairs"
  },
  {
   "property": "C79",
   "status": "proved",
   "theorems": [
    "Verif.Props.MunkresFloat.complete",
    "Verif.Props.MunkresFloat.complete_double",
    "Verif.Props.MunkresFloat.optimal",
    "Verif.Props.MunkresFloat.optimal_double",
    "Verif.Props.MunkresFloat.exact_steps",
    "Verif.Props.MunkresFloat.forever",
    "Verif.Props.MunkresFloat.forever_double",
    "Verif.Props.MunkresFloat.not_optimal_double"
   ],
   "note": "violated without the limits: with a float far above sys.maxint compute never returns (forever_double), and with large floats the assignment need not be minimal (not_optimal_double); overflow to inf and underflow are not modelled"
  },
  {
   "property": "C80",
   "status": "proved",
   "theorems": [
    "Verif.Props.AlignFloat.nw_valid",
    "Verif.Props.AlignFloat.sw_valid",
    "Verif.Props.AlignFloat.we_limit",
    "Verif.Props.AlignFloat.we_valid",
    "Verif.Props.AlignFloat.nw_near",
    "Verif.Props.AlignFloat.sw_near",
    "Verif.Props.AlignFloat.we_near",
    "Verif.Props.AlignFloat.nw_double",
    "Verif.Props.AlignFloat.sw_double",
    "Verif.Props.AlignFloat.integers",
    "Verif.Props.AlignFloat.integers_double",
    "Verif.Props.AlignFloat.not_best_double"
   ],
   "note": "the best alignment need not be found with floats (not_best_double shows it); overflow to inf, nan and underflow are not modelled"
  },
  {
   "property": "C81",
   "status": "proved",
   "theorems": [
    "Verif.Props.SimilarFloat.rounded_once",
    "Verif.Props.SimilarFloat.rounded_once_many",
    "Verif.Props.SimilarFloat.rounded_once_rouge",
    "Verif.Props.SimilarFloat.float_coefficients",
    "Verif.Props.SimilarFloat.ranking",
    "Verif.Props.SimilarFloat.levenshtein_double",
    "Verif.Props.SimilarFloat.sqrt_rounded",
    "Verif.Props.SimilarFloat.cosine_range",
    "Verif.Props.SimilarFloat.cosine_double",
    "Verif.Props.SimilarFloat.gen_cosine_range",
    "Verif.Props.SimilarFloat.gen_cosine_double",
    "Verif.Props.SimilarFloat.lcs_range",
    "Verif.Props.SimilarFloat.lcs_double",
    "Verif.Props.SimilarFloat.rouge_l_float",
    "Verif.Props.SimilarFloat.rouge_l_error",
    "Verif.Props.SimilarFloat.rouge_l_near",
    "Verif.Props.SimilarFloat.rouge_s_float",
    "Verif.Props.SimilarFloat.rouge_s_near",
    "Verif.Props.SimilarFloat.rouge_su_float",
    "Verif.Props.SimilarFloat.doubles",
    "Verif.Props.SimilarFloat.f_measure_above"
   ],
   "note": "overflow to inf and underflow are not modelled; the float is a rational rounded to 53 binary digits without limits to the exponent"
  },
  {
   "property": "C82",
   "status": "proved",
   "theorems": [
    "Verif.Props.EvalFloat.table_scores",
    "Verif.Props.EvalFloat.empty_table",
    "Verif.Props.EvalFloat.perfect",
    "Verif.Props.EvalFloat.table_near",
    "Verif.Props.EvalFloat.variance_near",
    "Verif.Props.EvalFloat.agreement_table",
    "Verif.Props.EvalFloat.agreement_near",
    "Verif.Props.EvalFloat.full_agreement",
    "Verif.Props.EvalFloat.mean_above",
    "Verif.Props.EvalFloat.text_scores",
    "Verif.Props.EvalFloat.text_scores_near",
    "Verif.Props.EvalFloat.weighted_cosine",
    "Verif.Props.EvalFloat.weighted_cosine_self",
    "Verif.Props.EvalFloat.weighted_cosine_bound",
    "Verif.Props.EvalFloat.weighted_cosine_above"
   ],
   "note": "overflow to inf and underflow are not modelled"
  },
  {
   "property": "C83",
   "status": "proved",
   "theorems": [
    "Verif.Props.CommandLine.conserved",
    "Verif.Props.CommandLine.complete",
    "Verif.Props.CommandLine.complete_dashes",
    "Verif.Props.CommandLine.split_files",
    "Verif.Props.CommandLine.missing",
    "Verif.Props.CommandLine.help_version",
    "Verif.Props.CommandLine.unknown",
    "Verif.Props.CommandLine.ambiguous",
    "Verif.Props.CommandLine.clean",
    "Verif.Props.CommandLine.tools_wf",
    "Verif.Props.CommandLine.attributes_set",
    "Verif.Props.CommandLine.agreement_keywords",
    "Verif.Props.CommandLine.file_list",
    "Verif.Props.CommandLine.prefix_pair",
    "Verif.Props.CommandLine.threshold_never",
    "Verif.Props.CommandLine.threshold_works"
   ],
   "note": "mutually exclusive groups, sub-commands, choices and arguments from files are not modelled; the tools do not use the last four; violated for the threshold of pgc_stats (threshold_never) and the file of ptc_n_to_id (file_list)"
  },
  {
   "property": "C84",
   "status": "proved",
   "theorems": [
    "Verif.Props.SplitJoin.split_files",
    "Verif.Props.SplitJoin.split_join",
    "Verif.Props.SplitJoin.wrong_order",
    "Verif.Props.SplitJoin.split_refused",
    "Verif.Props.SplitJoin.split_complete",
    "Verif.Props.SplitJoin.join_reads",
    "Verif.Props.SplitJoin.join_refused",
    "Verif.Props.SplitJoin.join_complete"
   ],
   "note": "names are compared as sequences of characters; messages, a full disk and glob itself (any list of files) are not modelled; violated beyond 9999 graph pairs (wrong_order)"
  },
  {
   "property": "C85",
   "status": "proved",
   "theorems": [
    "Verif.Props.UsageHelp.declared",
    "Verif.Props.UsageHelp.usage_complete",
    "Verif.Props.UsageHelp.help_shows",
    "Verif.Props.UsageHelp.help_narrow",
    "Verif.Props.UsageHelp.column_unique",
    "Verif.Props.UsageHelp.tools_declared",
    "Verif.Props.UsageHelp.tools_usage",
    "Verif.Props.UsageHelp.tools_help"
   ],
   "note": "textwrap.wrap is a parameter (it breaks a text in lines of the width and loses nothing but white space); help texts with % are not covered (the tools have none); groups of one's own, suppressed arguments, choices, and tuples as metavars are not modelled; violated in narrow terminals (help_narrow), and for blank help texts and metavars with brackets (examples)"
  },
  {
   "property": "C86",
   "status": "proved",
   "theorems": [
    "Verif.Props.CommandErrors.refused",
    "Verif.Props.CommandErrors.ambiguous_iff",
    "Verif.Props.CommandErrors.ambiguous_unique",
    "Verif.Props.CommandErrors.ends",
    "Verif.Props.CommandErrors.tools_plain",
    "Verif.Props.CommandErrors.tools_end",
    "Verif.Props.CommandErrors.tools_few"
   ],
   "note": "textwrap.wrap and repr are parameters; violated in part: the text called ignored after a letter that is no option lacks that letter, or is None (examples), -h fails in narrow terminals"
  },
  {
   "property": "C87",
   "status": "proved",
   "theorems": [
    "Verif.Props.CacheKey.key_exact",
    "Verif.Props.CacheKey.transparent",
    "Verif.Props.CacheKey.same_name",
    "Verif.Props.CacheKey.once",
    "Verif.Props.CacheKey.expiry",
    "Verif.Props.CacheKey.default_fail"
   ],
   "note": "Functions are deterministic, do not use the cache themselves; floats and objects as arguments are not modelled (two objects may have the same repr). Findings: functions of the same name in different modules that share a cache get each other's results; keywords func, self, key and generator are TypeErrors; with default_fail, memoised functions always raise KeyError"
  },
  {
   "property": "C88",
   "status": "proved",
   "theorems": [
    "Verif.Props.MatrixPrint.raises",
    "Verif.Props.MatrixPrint.shows",
    "Verif.Props.MatrixPrint.told"
   ],
   "note": "matrices of integers; the logarithm is a parameter. Findings: a matrix with a zero or a negative entry cannot be printed (ValueError after the message), an empty row lacks its opening bracket"
  },
  {
   "property": "C89",
   "status": "proved",
   "theorems": [
    "Verif.Props.MakeDirs.resolves",
    "Verif.Props.MakeDirs.grown",
    "Verif.Props.MakeDirs.present",
    "Verif.Props.MakeDirs.made",
    "Verif.Props.MakeDirs.success",
    "Verif.Props.MakeDirs.unnoticed",
    "Verif.Props.MakeDirs.deep"
   ],
   "note": "os.makedirs, os.mkdir and os.path.exists of Python 2.7 and POSIX are modelled, without limits on names and without other processes. Finding: the docstring promises that no exception is raised if the directory exists, but every OSError is swallowed (the handler has no raise): without permission, or below a file, makedirs returns and there is no directory"
  },
  {
   "property": "C90",
   "status": "proved",
   "theorems": [
    "Verif.Props.FileGlob.form",
    "Verif.Props.FileGlob.found",
    "Verif.Props.FileGlob.times",
    "Verif.Props.FileGlob.order"
   ],
   "note": "glob.glob and fnmatch of Python 2.7 are modelled for patterns without / and without classes [...] . Finding: a misspelt file name is passed over in silence, and a file that two patterns select is there twice"
  }
 ]
}