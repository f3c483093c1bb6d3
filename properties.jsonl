{"id": "C01", "title": "Levenshtein distance is the minimal edit cost", "statement": "levenshtein(s1, s2) returns exactly the smallest number of single-element insertions, deletions and substitutions that turn s1 into s2: some edit script of that cost exists and none is cheaper, whichever argument is longer.", "quantifier": "every pair of finite sequences over any element type with decidable equality", "why_tests_cant": "minimality ranges over all edit scripts of all pairs of sequences; the two-row table and the argument swap interact with every length combination", "anchors": ["lib/daeso/string/levenshtein.py:levenshtein"]}
{"id": "C02", "title": "Levenshtein distance is a metric", "statement": "levenshtein is 0 exactly on equal sequences, symmetric in its arguments, and satisfies the triangle inequality.", "quantifier": "every pair and triple of finite sequences", "why_tests_cant": "the triangle inequality quantifies over triples of unbounded sequences", "anchors": ["lib/daeso/string/levenshtein.py:levenshtein"]}
{"id": "C03", "title": "Normalised Levenshtein distance is in [0,1]", "statement": "normalized_levenshtein never raises, is between 0 and 1, is 0 exactly on equal sequences, is symmetric, and is 0 for two empty sequences; the raw distance lies between the length difference and the longer length.", "quantifier": "every pair of finite sequences", "why_tests_cant": "bounds must hold for all lengths, including the empty/empty division guard", "anchors": ["lib/daeso/string/levenshtein.py:normalized_levenshtein"]}
{"id": "C04", "title": "lcs returns a longest common subsequence and never fails", "statement": "lcs(a, b) terminates without a lookup error and returns a sequence that is a subsequence of both a and b and at least as long as every other common subsequence.", "quantifier": "every pair of finite sequences", "why_tests_cant": "the traceback's index walk and the optimality claim range over all inputs and all competing subsequences", "anchors": ["lib/daeso/string/lcs.py:lcs"]}
{"id": "C05", "title": "Normalised LCS is bounded and symmetric", "statement": "the length of lcs is symmetric in its arguments; normalized_lcs is in [0,1], is 0 when either input is empty, is 1 on equal non-empty inputs, and only then.", "quantifier": "every pair of finite sequences", "why_tests_cant": "needs len(lcs)^2 <= len(a)*len(b) for all inputs", "anchors": ["lib/daeso/string/lcs.py:normalized_lcs"]}
{"id": "C06", "title": "n-gram extraction enumerates exactly the contiguous windows", "statement": "n_gram_slices yields, in left-to-right order, every contiguous window of length n of the padded sequence and nothing else; there are max(0, len + 2*pad - n + 1) of them; without padding every window is an infix of the input. n_gram_slices_range agrees with n_gram_slices for every n in the range.", "quantifier": "every sequence, every n>=1, every pad element and pad size", "why_tests_cant": "window boundaries for all n/len/pad combinations, including n > len", "anchors": ["lib/daeso/string/ngram.py:n_gram_slices", "lib/daeso/string/ngram.py:pad", "lib/daeso/string/ngram.py:n_gram_slices_range"]}
{"id": "C07", "title": "Skip-bigram extraction enumerates exactly the ordered pairs within the skip limit", "statement": "skip_bigram_slices yields exactly the pairs (x_i, x_j) with i<j and at most `limit` elements skipped, each once per position pair, in lexicographic position order; without limit there are n(n-1)/2.", "quantifier": "every sequence and every limit (or none)", "why_tests_cant": "the recursion and slice bound must be right for all lengths and limits", "anchors": ["lib/daeso/string/sgram.py:skip_bigram_slices"]}
{"id": "C08", "title": "Set-overlap coefficients are in [0,1] and symmetric", "statement": "dice, jaccard, tanimoto, cosine, overlap_min and overlap_max never raise, are in [0,1], are symmetric, and are 0 exactly when the sequences share no element.", "quantifier": "every pair of finite sequences, with or without duplicates", "why_tests_cant": "inequalities between set and list cardinalities for all inputs, plus every zero-division path", "anchors": ["lib/daeso/string/similar.py"]}
{"id": "C09", "title": "Overlap coefficients equal 1 on identical inputs (as sets)", "statement": "the documentation says sequences are regarded as sets, so a coefficient of two inputs with the same non-empty element set should be 1. True of jaccard for all inputs (and only then); for dice, cosine, tanimoto and overlap_* it holds for duplicate-free inputs and fails with duplicates (dice('aa','aa') = 1/2).", "quantifier": "every pair of finite sequences", "why_tests_cant": "the claim distinguishes duplicate-free from general inputs; a sample of duplicate-free tests never shows the failure", "anchors": ["lib/daeso/string/similar.py:dice_coef", "lib/daeso/string/similar.py:jaccard_coef"]}
{"id": "C10", "title": "Generalised coefficients extend the binary ones", "statement": "generalized_dice/cosine/jaccard over a list of sequences are in [0,1] (the cosine only for lists other than one single sequence, where it is the number of different elements over the root of the length and can exceed 1), do not depend on the order of the list, equal the binary coefficient on two sequences, and are 0 on the empty list.", "quantifier": "every list of finite sequences", "why_tests_cant": "quantifies over all lists and permutations", "anchors": ["lib/daeso/string/similar.py"]}
{"id": "C11", "title": "ROUGE-N recall is in [0,1]", "statement": "rouge_n never raises and is non-negative; it is at most 1 whenever no n-gram occurs more often in the candidate than in the references. For general candidates the bound fails because repeated candidate n-grams are counted without clipping.", "quantifier": "every candidate, reference list and n", "why_tests_cant": "the failure needs repeated n-grams; the bound needs an argument over all multisets", "anchors": ["lib/daeso/string/rouge.py:rouge_n"]}
{"id": "C12", "title": "ROUGE-L and ROUGE-S scores are in [0,1], symmetric at beta=1", "statement": "rouge_l and rouge_s/rouge_su are the F measure of the LCS length, or of the number of common skip-bigrams, over the sizes of the inputs; they are in [0,1] for any non-negative beta whenever they return at all, are symmetric for beta=1, equal 1 on identical input (rouge_s exactly for inputs without repeated skip-bigrams: repetitions are counted in the sizes only), and fail with a zero division exactly on inputs with no tokens (rouge_l) or no skip-bigrams (rouge_s).", "quantifier": "every pair of sequences, every beta>=0, every limit", "why_tests_cant": "ranges over all inputs and all betas; the exception boundary must be exact", "anchors": ["lib/daeso/string/rouge.py"]}
{"id": "C13", "title": "median returns an element with minimal sum of distances", "statement": "median returns a member of the input whose summed distance to all members is minimal, the first such; it fails exactly on the empty input.", "quantifier": "every non-empty list and every symmetric distance function with zero self distance", "why_tests_cant": "minimality over all list members for all lists", "anchors": ["lib/daeso/string/median.py:median"]}
{"id": "C14", "title": "Needleman-Wunsch score is optimal", "statement": "for a constant gap cost, needleman_wunsch returns the maximum total score over all global alignments. For element-dependent gap costs it does not (the border is initialised wrongly).", "quantifier": "every pair of sequences, every match function, every constant gap cost", "why_tests_cant": "optimality ranges over all alignments of all inputs", "anchors": ["lib/daeso/string/needleman_wunsch.py"]}
{"id": "C15", "title": "Needleman-Wunsch alignment is valid and attains the score", "statement": "the traceback terminates without lookup errors and returns strictly increasing in-range index pairs, whatever the gap costs; for a constant gap cost their score (pairs plus gaps for unaligned elements) equals the returned score.", "quantifier": "every pair of sequences, every match function, every gap cost function", "why_tests_cant": "traceback must follow the table for every input and tie", "anchors": ["lib/daeso/string/needleman_wunsch.py"]}
{"id": "C16", "title": "Smith-Waterman score is the best local alignment score", "statement": "smith_waterman returns the maximum score over all local alignments together with a valid alignment attaining it, and fails exactly when no local alignment has positive score, for gap costs that are not positive. With a positive gap cost it is not optimal.", "quantifier": "every pair of sequences, every match function, every gap-cost function", "why_tests_cant": "optimality over all sub-segments and alignments", "anchors": ["lib/daeso/string/smith_waterman.py"]}
{"id": "C17", "title": "Waterman-Eggert returns at most `limit` positive local alignments", "statement": "waterman_eggert returns at most limit alignments (any number when limit is 0/None), each strictly increasing and in range; the first is a best local alignment, a smaller limit gives a prefix of the result, and two successive alignments share no pair of elements; the list of matrices has, for each alignment, the matrix it was read from, starting at the highest score, and the matrix after it has zeros for its pairs.  The documentation claims more, and is wrong: alignments can intersect, can have a non-positive score or be empty, and without a limit the function may never return.", "quantifier": "every pair of sequences, scoring functions and limit", "why_tests_cant": "loop termination and matrix recomputation for all inputs", "anchors": ["lib/daeso/string/waterman_eggert.py"]}
{"id": "C18", "title": "tf-idf weights are non-negative and consistent", "statement": "document frequency of a term is the number of documents containing it (between 1 and N); term frequencies of a non-empty document sum to 1; weights are >= 0, 0 exactly when the term is absent or occurs in every document; normalised weights are <= 1.", "quantifier": "every list of documents", "why_tests_cant": "ranges over all corpora; log positivity needs 1<=df<=N for all of them", "anchors": ["lib/daeso/string/tf_idf.py"]}
{"id": "C19", "title": "Dutch number spelling is the specified one, and identifies the number below a million", "statement": "spell_out_number spells every number below 10^24 by its groups of three digits (units before tens, no 'een' before honderd or duizend, 'nul' for an empty last group, hundreds for four digits if preferred), raises IndexError from 10^24 on, and two numbers are spelled alike only if they are at least a million and differ only in having no thousands or one thousand: 1000000 and 1001000.", "quantifier": "every natural number", "why_tests_cant": "injectivity is a statement over all pairs", "anchors": ["lib/daeso/string/number.py:spell_out_number"]}
{"id": "C20", "title": "Munkres computes a minimum-cost complete assignment", "statement": "for every square matrix of integer costs, Munkres.compute terminates and returns pairs that form a complete one-to-one assignment whose total cost is minimal among all assignments; for rectangular matrices the pairs are one-to-one, in range, and cover the smaller side at minimal cost.", "quantifier": "every cost matrix", "why_tests_cant": "optimality over n! assignments for every matrix and termination of the step loop", "anchors": ["lib/daeso/thirdparty/munkres.py:Munkres.compute"]}
{"id": "C21", "title": "OrderedDict behaves as an insertion-ordered map", "statement": "after any history of set/delete/popitem/clear/setdefault/pop operations, lookup gives the last value set since the last delete, and iteration gives keys without duplicates in order of first insertion since last absence; popitem is LIFO; deleting an absent key raises KeyError and changes nothing.", "quantifier": "every operation history", "why_tests_cant": "quantifies over all histories", "anchors": ["lib/daeso/thirdparty/odict.py"]}
{"id": "C22", "title": "Counter behaves as a multiset", "statement": "after updating from any iterable the count of x is its number of occurrences; +, -, |, & give per-element sum, truncated difference, maximum, minimum with only positive counts kept; elements() reproduces the multiset; most_common is sorted by count descending.", "quantifier": "every pair of counters/iterables", "why_tests_cant": "algebraic laws over all multisets", "anchors": ["lib/daeso/thirdparty/counter.py"]}
{"id": "C23", "title": "GenericCache never exceeds its maximum size", "statement": "in every history of inserts, fetches, removes, collects and reconfigurations in which operations terminate, the number of cached entries is at most maxsize after each insert (unlimited when maxsize is 0).", "quantifier": "every operation history and clock", "why_tests_cant": "invariant over unbounded histories", "anchors": ["lib/daeso/thirdparty/GenericCache/GenericCache.py"]}
{"id": "C24", "title": "GenericCache evicts the least recently used entry and returns the latest value", "statement": "a fetch of a key returns the value of the last insert of that key, unless removed, expired or evicted; the key evicted by an insert is the one least recently inserted-or-fetched (for histories that never re-insert a live key).", "quantifier": "every operation history", "why_tests_cant": "recency order over all interleavings of fetch and insert", "anchors": ["lib/daeso/thirdparty/GenericCache/GenericCache.py", "lib/daeso/thirdparty/GenericCache/LRUStock.py"]}
{"id": "C25", "title": "GenericCache operations terminate", "statement": "every operation terminates in histories that do not re-insert a live key. Otherwise not: re-inserting a live key leaves a stale list node, and a later insert into the full cache loops forever.", "quantifier": "every operation history", "why_tests_cant": "non-termination only appears after a specific history", "anchors": ["lib/daeso/thirdparty/GenericCache/GenericCache.py:GenericCache._shrink"]}
{"id": "C26", "title": "Memoisation is transparent", "statement": "calling a function through the cached decorator any number of times with any arguments returns what the undecorated (pure) function returns.", "quantifier": "every call history, maxsize and expiry", "why_tests_cant": "unbounded call histories interact with eviction and expiry", "anchors": ["lib/daeso/thirdparty/GenericCache/decorators.py"]}
{"id": "C27", "title": "Ordered digraph keeps successor and predecessor views consistent", "statement": "after any sequence of add_node/add_edge/remove operations, v is a successor of u iff u is a predecessor of v with the same edge data, every endpoint is a node, and successors are listed in order of first insertion.", "quantifier": "every operation history", "why_tests_cant": "invariant over unbounded histories", "anchors": ["lib/daeso/graph/ograph.py:ODiGraph"]}
{"id": "C28", "title": "terminal_yield lists each reachable terminal once and terminates", "statement": "terminal_yield(n) terminates on every graph including cyclic ones and returns exactly the terminals reachable from n, each once; on an ordered tree the order is left-to-right; a terminal is a node without successors that has tokens that are not all punctuation, unless punctuation or empty nodes are asked for; terminals() lists them in the order of the nodes.", "quantifier": "every directed graph, every start node", "why_tests_cant": "reachability and termination on arbitrary graphs with cycles and sharing", "anchors": ["lib/daeso/graph/daesograph.py:DaesoGraph.terminal_yield"]}
{"id": "C29", "title": "Graph edges only between existing nodes", "statement": "DaesoGraph.add_edge raises ValueError and leaves the graph unchanged when an endpoint is missing; so every edge of any DaesoGraph built through the API joins existing nodes, and add_edges_from adds precisely the prefix of edges before the first bad one.", "quantifier": "every operation history", "why_tests_cant": "invariant over unbounded histories including failures", "anchors": ["lib/daeso/graph/daesograph.py"]}
{"id": "C30", "title": "Token strings round-trip", "statement": "set_node_token_string followed by get_node_token_string returns the same string for every string; for the whole-graph token string it returns the whitespace-normalised string, so it is the identity exactly on normalised strings.", "quantifier": "every string", "why_tests_cant": "all strings, including empty and repeated spaces", "anchors": ["lib/daeso/graph/daesograph.py"]}
{"id": "C31", "title": "GraphMapping add/get/del act as a finite map over node pairs", "statement": "add_align then get_align on the same pair gives the relation; other pairs are unaffected; del_align removes exactly that pair and raises if absent; __len__ is the number of aligned pairs; no node remains registered without an alignment.", "quantifier": "every history of add/del", "why_tests_cant": "frame conditions over all histories and pairs", "anchors": ["lib/daeso/pgc/graphpair.py:GraphMapping"]}
{"id": "C32", "title": "GraphMatching is always one-to-one", "statement": "after any history of add_align/del_align each source node has at most one target and each target node at most one source; the newest alignment always wins, and only conflicting alignments are dropped.", "quantifier": "every history of add/del", "why_tests_cant": "invariant over all histories", "anchors": ["lib/daeso/pgc/graphpair.py:GraphMatching"]}
{"id": "C33", "title": "Alignment equality is extensional", "statement": "two graph pairs' alignments compare equal exactly when they have the same set of labelled node pairs, independent of the order of insertion; so the comparison is an equivalence relation.", "quantifier": "every pair of histories", "why_tests_cant": "order-independence over all permutations", "anchors": ["lib/daeso/pgc/graphpair.py:GraphMapping._alignments_equal"]}
{"id": "C34", "title": "roots_aligned reports whether the roots are aligned", "statement": "roots_aligned() should be true iff the source root and target root are aligned. This holds when both roots have the same name; otherwise the function looks up the wrong target node: it tells whether the source root is aligned to a target node with the name of the source root, and is false for aligned roots with different names.", "quantifier": "every graph pair", "why_tests_cant": "the defect is invisible when roots happen to have equal names", "anchors": ["lib/daeso/pgc/graphpair.py:GraphMapping.roots_aligned"]}
{"id": "C35", "title": "Corpus sequence operations keep relation sets consistent and obey list laws", "statement": "corpus + corpus, += and slice assignment succeed only when relation lists agree, otherwise raise ValueError and leave the corpus unchanged; a slice, its deletion and its assignment concern exactly the pairs at the positions a Python slice denotes, and c * n repeats the pairs n times; slicing and concatenation obey c[:k] + c[k:] == c; setting relations always leaves them sorted.", "quantifier": "every corpus, index and history", "why_tests_cant": "slice arithmetic for all index values including negative", "anchors": ["lib/daeso/pgc/corpus.py:ParallelGraphCorpus"]}
{"id": "C36", "title": "Every list method of a corpus works", "statement": "ParallelGraphCorpus is documented as a list; pop should return the removed pair, insert should insert, != should negate ==, n*corpus should equal corpus*n. Of these, pop removes the pair at the given position and nothing else; but it returns None for every corpus, and insert, != and n*corpus raise for every corpus.", "quantifier": "every corpus", "why_tests_cant": "shows absence of any input on which these work", "anchors": ["lib/daeso/pgc/corpus.py:ParallelGraphCorpus.pop", "lib/daeso/pgc/corpus.py:ParallelGraphCorpus.insert"]}
{"id": "C37", "title": "purge shares equal graph banks and changes nothing else", "statement": "after purge any two graph pairs whose banks are equal share the identical bank object; alignments, graphs and bank files are unchanged; purge is idempotent.", "quantifier": "every corpus", "why_tests_cant": "identity sharing over all corpora", "anchors": ["lib/daeso/pgc/corpus.py:ParallelGraphCorpus.purge"]}
{"id": "C38", "title": "Writing then reading a parallel graph corpus is the identity", "statement": "reading the file written for a corpus (plain or pretty printed) gives back the same relations, corpus metadata, and graph pairs in the same order with the same bank files and formats, graph ids, metadata and alignments, banks for one file being merged; with sparse loading all graphs are there. This holds when relations are sorted, stripped and not empty, shown paths lead back to the bank files, and metadata has children and holds no tags of the corpus format: childless metadata is dropped, a <node_pair> in metadata becomes an alignment, an empty relation makes the file unreadable.", "quantifier": "every corpus with comparable banks, and every history of alignment operations on its graph pairs", "why_tests_cant": "round-trip over all corpora; bank numbering and id resolution depend on the whole corpus", "anchors": ["lib/daeso/pgc/corpus.py:PGCParser", "lib/daeso/pgc/corpus.py:PGCGenerator"]}
{"id": "C39", "title": "The corpus reader rejects dangling references", "statement": "a graph_pair element with a missing required attribute or a bank id not declared before it raises DaesoError; a corpus that is read has exactly one graph pair for each graph_pair element, in order, with the banks and graph ids given there.", "quantifier": "every XML event sequence", "why_tests_cant": "over all documents", "anchors": ["lib/daeso/pgc/corpus.py:PGCParser._start_graph_pair"]}
{"id": "C40", "title": "XML comparison is an equivalence and indentation is idempotent", "statement": "on elements whose texts and tails are ASCII, etree.equals is reflexive, symmetric and transitive and holds exactly when tags, attributes, stripped texts and tails, and children agree (a non-ASCII text or tail makes it raise UnicodeEncodeError); etree.indent puts every child and every end tag after children on a line of its own with two spaces per level, is idempotent and changes only blank text and tails; it never changes tags, attributes or non-blank text.", "quantifier": "every element tree", "why_tests_cant": "structural induction over all trees", "anchors": ["lib/daeso/utils/etree.py"]}
{"id": "C41", "title": "Alignment evaluation counts are set cardinalities", "statement": "after adding corpus pairs, per-relation true/pred/common counts are the numbers of reference, predicted and shared labelled alignments, common <= min(true,pred), and the unlabelled true and pred counts are the sums over relations.", "quantifier": "every pair of corpora and relation list", "why_tests_cant": "sums over all corpora", "anchors": ["lib/daeso/pgc/evaluate.py:AlignEval.add"]}
{"id": "C42", "title": "Precision, recall and F are in [0,1] and well-behaved", "statement": "precision, recall and F-score derived from counts are in [0,1], never raise, swap under exchange of true and predicted, equal 1 exactly on perfect agreement, and F lies between precision and recall.", "quantifier": "every count triple with common <= min(true,pred)", "why_tests_cant": "inequalities over all counts", "anchors": ["lib/daeso/pgc/evaluate.py:AlignCounts"]}
{"id": "C43", "title": "Micro/macro evaluation summaries are the stated aggregates", "statement": "summed counts over corpora equal counts over the concatenation; macro averages are means of per-relation scores and lie between the minimum and maximum; variances are not negative. The relations must be distinct and not empty: a relation given several times distorts the overall macro average, no relations or no corpora give ZeroDivisionError.", "quantifier": "every evaluation history", "why_tests_cant": "sums and means for arbitrary many corpora", "anchors": ["lib/daeso/pgc/evaluate.py:AlignCountsTable"]}
{"id": "C44", "title": "Alignment diff partitions the alignments", "statement": "the diff of two corpora puts every alignment of either of two corresponding graph pairs into exactly one of: identical, relation-different, only-first, only-second; swapping the arguments swaps the latter two and the diff is empty iff the alignments are equal. Corpora of different lengths are refused. This holds when all relations are compared; a restriction to some relations loses alignments whose relation was changed to one outside the restriction, and words_only always raises AttributeError.", "quantifier": "every pair of graph pairs", "why_tests_cant": "partition over all alignment sets", "anchors": ["lib/daeso/pgc/diff.py"]}
{"id": "C45", "title": "Agreement tables: cross evaluation covers all ordered pairs and diagonal-free means", "statement": "cross evaluation of at least two differently named annotators runs exactly the ordered pairs of different annotators, each once; the tables hold the scores of the column annotator as prediction of the row annotator; column means ignore the diagonal and lie within the range of the entries; variances are non-negative; exchanging two annotators exchanges precision and recall. words_only keeps exactly the alignments of two terminal nodes. A single annotator gives ZeroDivisionError.", "quantifier": "every list of annotators and every table", "why_tests_cant": "combinatorial coverage for all sizes", "anchors": ["lib/daeso/pgc/agreement.py"]}
{"id": "C46", "title": "Corpus creation filter keeps exactly the admissible pairs", "statement": "creating a graph corpus from a text corpus makes a graph pair for exactly those links whose element tags are requested, whose token counts are within bounds and whose token difference is at least the minimum, in order; the difference is symmetric and 0 iff the same words occur; a link whose elements or graphs do not exist raises KeyError, and links by number instead of id cannot be used.", "quantifier": "every alignment list", "why_tests_cant": "for all inputs", "anchors": ["lib/daeso/pgc/creation.py"]}
{"id": "C47", "title": "Sparse graph bank loading is all-or-nothing", "statement": "for a corpus read with stubs and without a graph aligned with itself, loading a bank replaces every stub of the bank, in all graph pairs, by the graph of the same id from the file, or raises an error before any graph pair changes (DaesoError for a missing file or graph); after reading with sparse loading no stub is left. A graph aligned with itself makes sparse loading fail halfway with AssertionError.", "quantifier": "every event sequence, set of requests and bank contents", "why_tests_cant": "atomicity over all failure points", "anchors": ["lib/daeso/gb/graphbank.py:SparseGraphBank.load", "lib/daeso/gb/graphstub.py"]}
{"id": "C48", "title": "Sparse parsing equals full parsing restricted to the requested ids", "statement": "for every graph file, sparse parsing with a set of ids yields exactly the graphs full parsing yields for these ids.", "quantifier": "every GraphML event sequence", "why_tests_cant": "over all documents", "anchors": ["lib/daeso/gb/graphml.py"]}
{"id": "C49", "title": "Corpus statistics are internally consistent", "statement": "the counts are exactly those of the graph pairs, alignments, graphs, tokens and nodes that are not excluded by the options; aligned plus unaligned equals total for graphs and nodes, singly plus multiply aligned equals aligned, relation counts add up to the number of node pairs, percentages of relations to 100, overall counts are the sums over corpora; but failed parses are also counted in graphs that are not, an unknown relation raises, and banks alone never report alignments.", "quantifier": "every corpus list", "why_tests_cant": "accounting identities for all inputs", "anchors": ["lib/daeso/pgc/pgcstats.py", "lib/daeso/gb/gbstats.py"]}
{"id": "C50", "title": "Splitting a corpus loses nothing", "statement": "pgc_split's parts concatenate to the corpus, each has the computed size except the last, none is empty, their file names differ, and there are at most `parts`; but not always exactly `parts` (as many pairs as parts give half as many); a negative number of parts or size writes nothing; pgc_join of the parts gives the pairs of the corpus back, and joining corpora with other relations raises.", "quantifier": "every corpus length and number of parts", "why_tests_cant": "integer rounding for all sizes", "anchors": ["bin/pgc_split.py"]}
{"id": "C51", "title": "Injected alignments are extracted unchanged", "statement": "injecting alignments between elements of a parallel text document and extracting them gives back each link as often as it was there, with the same tags and numbers (or ids), in document order of the source elements; a link to no element raises, but numbers below 1 silently count from the end.", "quantifier": "every document and alignment list", "why_tests_cant": "all documents and duplicates", "anchors": ["lib/daeso/ptc/document.py"]}
{"id": "C52", "title": "Indexed element trees address the right text", "statement": "after indexing, the text of each element is the concatenated text of its subtree, spans of children are nested in the parent's and disjoint in order, and the n-th element of a tag in document order has number n. Ignored elements have no text in a document indexed for the first time, but keep an old span otherwise, and ignored elements without children are not marked as ignored.", "quantifier": "every element tree", "why_tests_cant": "structural induction over all trees", "anchors": ["lib/daeso/ptc/ielemtree.py"]}
{"id": "C53", "title": "Non-crossing filter yields a maximal non-crossing subset", "statement": "the filtered alignments are a subset of the input at or above the threshold with no two crossing, and any dropped one at or above the threshold crosses a kept better-or-equal one.", "quantifier": "every similarity matrix", "why_tests_cant": "pairwise property of greedy selection for all inputs", "anchors": ["lib/daeso/ptc/textalign.py:no_cross_filter"]}
{"id": "C54", "title": "Threshold filtering and clearing", "statement": "threshold filtering keeps exactly entries above the threshold; clearing alignments removes exactly the alignments mentioning the given tags.", "quantifier": "every matrix/document", "why_tests_cant": "for all inputs", "anchors": ["lib/daeso/ptc/textalign.py"]}
{"id": "C55", "title": "Weighted cosine similarity is in [0,1]", "statement": "weighted cosine similarity of non-negative weights is in [0,1], symmetric, and 1 for identical non-zero vectors.", "quantifier": "every pair of weighted term vectors", "why_tests_cant": "Cauchy-Schwarz for all dimensions", "anchors": ["lib/daeso/ptc/textalign.py"]}
{"id": "C56", "title": "Directory change rewrites exactly the matching prefix", "statement": "pgc_chdir replaces the prefix of each file path that starts with from_path and leaves all other paths alone; applying it with the arguments exchanged undoes it exactly when no other path starts with to_path (or both are the same); an empty path element raises.", "quantifier": "every list of paths", "why_tests_cant": "for all strings", "anchors": ["bin/pgc_chdir.py"]}
{"id": "C57", "title": "Recency list integrity", "statement": "after any history of add (of new items), update, discard and clear, iterating over an LRUStock gives its items from least to most recently updated, the backward walk gives the reverse, pop shows the oldest and size counts them.", "quantifier": "every operation history", "why_tests_cant": "pointer structure invariant over unbounded histories", "anchors": ["lib/daeso/thirdparty/GenericCache/LRUStock.py:LRUStock"]}
{"id": "C58", "title": "Node attributes are independent", "statement": "the attributes of a node change only by operations that add or remove that node, and never by operations on edges, in histories in which nodes are added one at a time without a caller's dictionary. Otherwise not: all nodes added by one add_nodes_from call, and all nodes added with the same attr_dict object, share one attribute dictionary, so changing one changes the others.", "quantifier": "every operation history, every pair of nodes", "why_tests_cant": "aliasing over unbounded histories", "anchors": ["lib/daeso/graph/ograph.py:ODiGraph.add_nodes_from", "lib/daeso/graph/ograph.py:ODiGraph.add_node"]}
{"id": "C59", "title": "Corpus equality is by content", "statement": "two corpora are equal exactly when they have the same relations, metadata with the same content, and graph pairs that agree one by one in bank files, graph ids, metadata and alignments; comparing a corpus without metadata with one with metadata raises AttributeError.", "quantifier": "all pairs of corpora over existing bank files", "why_tests_cant": "quantifies over all corpora, including aliased objects", "anchors": ["lib/daeso/pgc/corpus.py:ParallelGraphCorpus.__eq__", "lib/daeso/pgc/graphpair.py:GraphPairBase"]}
{"id": "C60", "title": "Text alignment adds exactly the similar pairs within aligned scopes", "statement": "aligning a corpus removes the links that mention the focus tags (when clearing is asked for), keeps all others, and adds exactly one link for each pair of focus elements below linked scope elements that is not linked yet and whose similarity the filter accepts; without scope tags the roots count as linked, and other links of the roots are lost. Elements in an ignored subtree should remain unaligned, but those without children are aligned.", "quantifier": "every pair of documents, link list, and term, weight, similarity and threshold function", "why_tests_cant": "quantifies over all trees, links and similarity functions", "anchors": ["lib/daeso/ptc/textalign.py:TextAligner", "lib/daeso/ptc/textalign.py:TextAlignerBase.align_corpus"]}
{"id": "C61", "title": "Loading a GraphML file yields what the file says", "statement": "for every file of key declarations and graphs in which every key is declared, every graph has tokens, every node a label and tokens, and the ends of edges are nodes, loading yields exactly its graphs, in order, with exactly its nodes, edges, token lists and attribute values, whatever text stands between elements and however the text is cut into pieces; default values given with keys have no effect. Any other file with distinct ids does not load: it raises DaesoError for an undeclared key or something missing, ValueError for an edge without an end, KeyError for a key for an unknown kind of component. Data of a graph must come first: after a node they raise TypeError, after an edge they end up with the edge.", "quantifier": "every such file, every way in which the XML reader cuts text", "why_tests_cant": "over all files and all ways of cutting text", "anchors": ["lib/daeso/gb/graphml.py", "lib/daeso/gb/daesograph.py"]}
{"id": "C62", "title": "Threads can share a cache", "statement": "all methods of a cache except membership tests and the enumeration of keys are synchronized: whatever the interleaving of the calls of any number of threads, the completed calls have the results they have when made one after the other in some order that respects the order of calls within threads and of calls that do not overlap; no schedule leads to a deadlock; and calls of a memoised function through a shared cache always return the value of the function. A membership test can see the cache in the middle of another thread's call.", "quantifier": "any number of threads, every list of calls per thread, every schedule at the level of single statements, and every point of it", "why_tests_cant": "quantifies over all schedules", "anchors": ["lib/daeso/thirdparty/GenericCache/decorators.py:synchronized", "lib/daeso/thirdparty/GenericCache/GenericCache.py:GenericCache", "lib/daeso/thirdparty/GenericCache/LRUStock.py:LRUStock"]}
{"id": "C63", "title": "Evaluation of a text alignment counts distinct aligned pairs", "statement": "for each pair of a true and a predicted corpus the evaluation prints the numbers of different pairs of ids that are aligned with both ends carrying the tag: in the true corpus, in the predicted corpus and in both, however often and in whatever order the links occur; precision, recall and F score are the shares these numbers imply, between 0 and 1, all 1 exactly for equal non-empty alignments and 0 exactly for disjoint ones; the last row has the sums; rows pair files with labels, by default the file name of the predicted corpus. Links by number have no ids, so that all of them count as one.", "quantifier": "all documents, tags, lists of file pairs and labels", "why_tests_cant": "quantifies over all link lists and lists of files", "anchors": ["lib/daeso/ptc/evaluate.py:eval_alignment", "lib/daeso/ptc/evaluate.py:count_alignment", "lib/daeso/ptc/evaluate.py:get_alignment", "lib/daeso/ptc/evaluate.py:compute_scores"]}
{"id": "C64", "title": "The printed differences of text alignments are the differences", "statement": "comparing two text alignments of the same documents w.r.t. a tag prints exactly the alignments of elements with this tag that one of them lacks, once each under the right heading with the ids and texts of both elements, numbered from 1; nothing is printed for a corpus and itself; exchanging the corpora exchanges the headings; an unknown tag raises KeyError. Targets without ids count as the same, and elements beyond the shorter document are not compared.", "quantifier": "all pairs of corpora whose links designate elements, by number or by id", "why_tests_cant": "quantifies over all trees and link lists", "anchors": ["lib/daeso/ptc/diff.py:print_diff", "lib/daeso/ptc/diff.py:read_corpus"]}
{"id": "C65", "title": "Tables of statistics survive being written and read", "statement": "writing a table of statistics and reading the file into a table with the same types of columns adds exactly its values: text and counts unchanged, other numbers rounded to two decimals (and exactly, if they have two decimals already), with or without the legenda. A file that was cut off at any point is either read completely or raises EOFError or ValueError; reading raises nothing else. The line of overall values has one word per overall value, and the legenda one line per column. This holds for tables with equally long columns of words that do not begin with four dashes and of numbers narrow enough to keep apart; outside these limits tables are misread silently.", "quantifier": "all tables within the limits, every table read into, every point at which the file is cut off", "why_tests_cant": "quantifies over all tables and all crash points", "anchors": ["lib/daeso/stats/table.py:StatsTable", "lib/daeso/stats/table.py:Column"]}
{"id": "C66", "title": "A Hitaext document says what was put into it", "statement": "any sequence of calls on a new or read document (file names, pseudo roots, render elements and their attributes, init_elems, alignment method, links) has exactly its effect and no other: each side, the method and the links change only by the calls for them, and the getters return what was set; init_elems gives one element for each tag of the text in order of first occurrence, marks the tags that occur once, and makes the root the pseudo root; a document is valid, and can be read after it was written, exactly if both file names are there, and then says the same. With search a file at the path given or relative to the document is found; but otherwise the search returns the corpus itself, and a childless element given to the constructor is ignored.", "quantifier": "every document that has each piece once, every history of calls, all texts, tags and file systems", "why_tests_cant": "histories are unbounded, and the calls find their element by paths in one shared tree", "anchors": ["lib/daeso/ptc/document.py: HitaextDoc.__init__, validate, get_filename, set_filename, get_pseudo_root, set_pseudo_root, get_pseudo_root_tags, get_elem_tags, get_elem, add_elem, default_elem, init_elems, get_tags, write, set_alignment_method, clear_alignments, add_n_alignment, add_id_alignment"]}
{"id": "C67", "title": "Reports over a corpus count every part once, however they came about", "statement": "corpus_seg_stats keeps a report file for each part (annotation and subsegment), each annotation and the segment. After any number of runs, with any targets and whatever the corpus was at the time of each, the files of the annotations and of the segment have the values of the table found last for each part, in order, each once; a first run reports exactly the parts asked for; a run for the changed parts has the same outcome as a run for all; a run that finds nothing new changes nothing, and no run changes other files. Parts whose files were removed keep being counted. Reports cut off by a crash are never counted in part: the next run raises an exception or gives the totals of the complete files. Names differ if annotations have no points or slashes and subsegments no points; subsegments that differ only in '/' and '.' share a file and are counted wrongly.", "quantifier": "every sequence of runs, all targets, annotations, subsegments and tables that can be read back, every point at which report files are cut off", "why_tests_cant": "quantifies over all histories of runs and crash points", "anchors": ["lib/daeso/stats/corpus.py:corpus_seg_stats", "lib/daeso/stats/corpus.py:read_subtable", "lib/daeso/stats/corpus.py:write_table"]}
{"id": "C68", "title": "Moving a Hitaext document to other directories", "statement": "ptc_chdir changes in each document the two file names and nothing else: each becomes the file name (what follows the last slash or backslash, without a drive) in the new directory, also for Windows paths; links, render elements and pseudo roots stay. Running it again changes nothing more (unless the directory is empty and the file name looks like a drive); a dry run changes no file; documents not given are not touched. An exception stops the run: the documents before it have been changed, those after it have not. A path that ends in a slash has no file name; without a new directory the document can then not be read any more.", "quantifier": "all documents, directories, paths and lists of files", "why_tests_cant": "over all paths and all documents, and at whichever file the run stops", "anchors": ["bin/ptc_chdir.py"]}
{"id": "C69", "title": "Corpora packed for another site can be read there", "statement": "pgc_zip writes for each corpus matched the corpus and one entry for each graph bank that its graph pairs use, with their contents, under their base names in one directory named after the archive, and nothing else; it succeeds exactly if all corpora can be read and all these files exist. Unpacked anywhere, and read with relax_gb_paths, the corpus is what it was, with all its graphs, apart from the paths of its banks, provided that all its banks are used, that the recorded paths do not exist at the new place and that there are no renaming links; without graphs it can always be read; where the recorded paths exist relax_gb_paths changes nothing. Otherwise it fails: unused banks are not packed but are loaded, banks under links are packed under another name, files with one base name overwrite each other, and files that happen to be at a recorded path are read instead.", "quantifier": "all corpora, file systems, patterns, archive names, directories and loading modes", "why_tests_cant": "over all corpora and all pairs of file systems", "anchors": ["bin/pgc_zip.py", "lib/daeso/pgc/corpus.py:_PGCParser.handle_file_elem_end, _graphbanks", "lib/daeso/utils/opsys.py:multiglob"]}
{"id": "C70", "title": "Paths of graph banks in a corpus file lead back to the graph banks", "statement": "a corpus written to any file, from any working directory, and read from any other by any path that leads to the same directory, through symbolic links or not, has the same graph bank paths, whether they were written relative or absolute. If corpus and banks are moved together, to another directory or file system, relative paths lead to the banks at their new place; absolute paths lead to the same place wherever the corpus is. realpath gives the path of a place without links, and stays there. Limits: names must not begin or end with white space, and a corpus file that itself is a link is not read relative to the file it leads to.", "quantifier": "all file systems with symbolic links (nested to any depth), working directories, paths and places", "why_tests_cant": "quantifies over all file systems and paths", "anchors": ["lib/daeso/pgc/corpus.py:_PGCParser.handle_file_elem_end, PGCGenerator._gen_graphbanks", "lib/daeso/gb/graphbank.py:GraphBank._set_file_path"]}
{"id": "C71", "title": "Copying corpora", "statement": "pgc_cp copies each source that holds a parallel graph corpus to the target file, or under its base name into the target directory, and the copy, read from its new place, is the same corpus (relations, metadata with elements, graph ids, alignments, and banks for the same files with the same formats, although the paths in the file are now relative to another directory). Without --overwrite no file that exists is changed, whatever happens; only targets are changed, and a source is never changed by copying it; running it again changes nothing. Sources that do not exist or cannot be read are skipped with a warning and do not keep others from being copied; several sources need a directory; of two sources with one base name the first one is kept, or with --overwrite the last. Limits: a corpus that can be read but not written (an attribute missing, the file of a bank missing) stops the run, in the former case leaving a torn target.", "quantifier": "all corpora, lists of sources, targets, file systems (with links) and working directories", "why_tests_cant": "quantifies over all corpora, file systems and lists of sources; the same file may be reached by different paths", "anchors": ["bin/pgc_cp.py", "lib/daeso/pgc/corpus.py:PGCGenerator.generate", "lib/daeso/pgc/corpus.py:_PGCParser.handle_file_elem_end"]}
{"id": "C72", "title": "Links by number rewritten as links by id", "statement": "rewriting a Hitaext document from alignment by number to alignment by id turns each link into the link by ids of the same two elements, as often as it was there, in document order of the source elements, and sets the method; if all aligned elements have ids of their own then the document says the same alignment as before (every source element has the same targets in the same order, every target the same sources), it can be written, and rewriting again changes nothing. Links by id can always be rewritten as links by number for the same elements. Limits: an aligned element without an id gives a link that cannot be written, of two elements with one id the last gets the alignments; and the script ptc_n_to_id itself always fails, because it opens the list of its arguments.", "quantifier": "all pairs of texts and all lists of links", "why_tests_cant": "over all texts and links; the meaning of a link depends on the whole text", "anchors": ["bin/ptc_n_to_id.py", "lib/daeso/ptc/document.py:HitaextDoc.inject_alignments, extract_alignments"]}
{"id": "C73", "title": "Aligned phrases as a table", "statement": "pgc_extract_phrases prints, file by file and graph pair by graph pair, one line for every alignment, each exactly once: source phrase, relation and target phrase (the tokens of the nodes separated by single spaces), with --verbose after the two bank paths, graph ids and node ids. The printed text determines the table if no column has a newline or the first character of the delimiter (with a delimiter of one character, by cutting at newlines and at the delimiter); otherwise different tables can print alike. An alignment of a node without tokens (with --verbose also a graph or bank without id or path) stops the run with a TypeError, after all lines before it; a file that cannot be read stops it after the lines of the files before it; with a delimiter that is not ASCII no line is ever printed.", "quantifier": "all graphs, alignments, corpora, lists of files and delimiters", "why_tests_cant": "quantifies over all alignments and their orders, and over all texts of phrases", "anchors": ["bin/pgc_extract_phrases.py", "lib/daeso/graph/daesograph.py:DaesoGraph.get_node_token_string", "lib/daeso/pgc/graphpair.py:GraphMapping.alignments_iter"]}
{"id": "C74", "title": "From text corpora and graph banks to corpus files", "statement": "pgc_from_ptc does nothing if there are not as many source and target graph banks as text corpora; otherwise it makes a corpus of the i-th text corpus and the i-th banks for every i and writes it in the working directory under the base name of the text corpus with the extension .pgc; no other file is changed, whatever happens. The corpus read again, from any working directory and by any path, has exactly one graph pair, without alignments, for each link between focus elements that are admissible by length and difference, in order, with the graph ids of the link and banks for the files given, and the relations given in alphabetical order. The first text corpus that fails stops the run, those before it stay written. Of text corpora with one base name the last one wins, and a text corpus in the working directory with the extension .pgc is overwritten by its own result.", "quantifier": "all lists of files, file systems, documents, graph banks and options", "why_tests_cant": "quantifies over all documents, paths and file systems, and over the point at which the run fails", "anchors": ["bin/pgc_from_ptc.py", "lib/daeso/pgc/creation.py:pgc_from_ptc", "lib/daeso/pgc/corpus.py:ParallelGraphCorpus.write, PGCGenerator.generate"]}
{"id": "C75", "title": "Printed score matrices and alignments can be read", "statement": "print_alignment writes a grid in which every row and column stands under its number and the text of its element, all columns are wider than their texts, and a field has x exactly where the two elements are aligned; two alignments are printed alike if and only if they align the same elements of the sequences. print_scores writes the whole part of every score (decimals are cut off) and the letter of its step: two matrices are printed alike if and only if these are the same, even if fields run together, and scores of at most five characters make a grid. A sequence without elements raises ValueError before anything is written, a matrix with a missing cell raises KeyError; the results of needleman_wunsch and smith_waterman for sequences with elements, and all results of waterman_eggert, are printed without exceptions.", "quantifier": "all sequences, matrices, alignments, similarity functions and gap costs", "why_tests_cant": "quantifies over all texts of elements, sizes and numbers", "anchors": ["lib/daeso/string/needleman_wunsch.py:print_scores, print_alignment", "lib/daeso/string/waterman_eggert.py:print_all_scores_and_alignments"]}
{"id": "C76", "title": "Printed evaluations and agreement tables", "statement": "After any history of added corpus pairs, run_eval and write of AlignEval print a table regardless of relations, a table for each relation in their order under its name in capitals, and a summary over the relations. Each table has a row for each corpus pair, in the order of adding, with the name and the exact numbers of true, predicted and common alignments, and a row with precision, recall and F score in percent rounded to two decimals, and the statistics of both; splitting a row at white space gives the name and the values. Agreement of annotators is printed as the evaluation of all ordered pairs of different annotators, and as a square table for each relation and measure, with the annotators in alphabetical order, nothing on the diagonal, and means and standard deviations below. Without names nothing is printed but a title (ValueError), and a table without some score is not printed to the end (KeyError).", "quantifier": "all histories of corpora, relations, names, annotators, orders of dicts, square root functions", "why_tests_cant": "the layout depends on unbounded numbers of rows and columns, on widths of names and on rounding of arbitrary numbers", "anchors": ["lib/daeso/pgc/evaluate.py: AlignEval.write, AlignCountsTable.write", "lib/daeso/pgc/agreement.py: run_eval, write_tables, FormatAnalysesMatrix.write", "lib/daeso/utils/report.py: header"]}
{"id": "C77", "title": "Printed differences between corpora", "statement": "pgc_diff writes, for every graph pair in turn, its two sentences, on request the comments of both annotators (nothing if there are none or they are blank), and a section under its title for each kind of difference that occurs, with every pair of nodes that belongs there exactly once: its number (1, 2, 3, ... through the whole report), the source node, the two relations in capitals (NONE if there is none) and the target node. If all alignments are the same, and neither identical alignments nor comments are asked for, only the sentences are written. Limits: the heads that name the corpora, the annotators and the graph pairs are made but never written, so that the output does not depend on the corpus names; the report is complete if and only if the relations and the labels of source nodes that it shows are ASCII, and otherwise breaks off with a UnicodeError, although labels of target nodes, words and comments can be any text; an empty comment element breaks it off with an AttributeError.", "quantifier": "all corpora with the same graphs, alignments, labels, words, comments, options", "why_tests_cant": "quantifies over all alignments and texts; an exception depends on a single character anywhere in the corpus", "anchors": ["lib/daeso/pgc/diff.py: pgc_diff, print_alignments, print_comments", "lib/daeso/utils/report.py: header", "bin/pgc_diff.py"]}
{"id": "C78", "title": "Pairs of source and target", "statement": "A Pair compares with == by what it holds, through nested pairs, wherever it is in memory (byte strings and unicode strings by their characters): on nestings within the recursion limit this is an equivalence, and deeper nestings of the same content, as well as pairs that hold themselves, raise RuntimeError. x in list, index, count, remove and == of lists go by content too, so that remove can take away another object. A new pair and set() change nothing that does not hold the pair; Pair(*pair) is a copy with the same content that later changes of the original leave alone. repr depends on the content only and determines it exactly, for all strings, numbers and nestings. Limits: == with something else gives None; != goes by identity, so that two pairs can be both equal and unequal; sets and dicts go by identity, so that sets of pairs made by two calls have nothing in common; str is ambiguous and fails exactly if some unicode string in it is not ASCII.", "quantifier": "all heaps of pairs, nestings, cycles, strings, numbers, lists and sets", "why_tests_cant": "the content is a tree of unbounded depth and heaps and strings are unbounded; the tests compare one pair", "anchors": ["lib/daeso/pair.py: Pair.__eq__, __iter__, __repr__, __str__, set", "lib/daeso/pgc/graphpair.py: alignments_iter", "lib/daeso/pgc/corpus.py: Pair(*new_banks)"]}
{"id": "C79", "title": "Assignment with floating-point costs", "statement": "For a rectangular matrix of floats, Munkres.compute returns a complete one-to-one assignment after a number of steps bounded by the size of the matrix alone (about 2n^2+6n), whatever rounding errors the sums and differences have, if no two costs (and 0) differ by more than sys.maxint; this holds for every rounding that keeps order and zero and leaves rounded numbers alone, so for floats of at most 2^61. Its cost is minimal if the costs are whole numbers of at most 2^51. Limits: with larger floats the cost need not be minimal, and with a float far above sys.maxint compute never returns.", "quantifier": "all matrices, all rounding functions", "why_tests_cant": "quantifies over all matrices of floats and over every order of rounding errors; a loop that ends only because of exact zeros could run forever", "anchors": ["lib/daeso/thirdparty/munkres.py: Munkres.compute, __step1, __step6, __find_smallest"]}
{"id": "C80", "title": "Alignment of sequences with floating-point scores", "statement": "However the sums of scores are rounded, needleman_wunsch ends without exception and returns an alignment; smith_waterman returns a local alignment or raises IndexError; waterman_eggert with a limit ends, and its alignments are valid and consecutive ones share no pair. If scores have size at most K and sums are rounded with an error of at most e, then for sequences with N elements in all, needleman_wunsch (gap costs constant on each sequence) misses the best score by at most 3Ne, smith_waterman and the first alignment of waterman_eggert (gap costs not positive) miss it by at most 2Ne, and IndexError or no alignment means that no score is above Ne; for floats e is K*N/2^52. For integer scores with K*N at most 2^53 the results are those of exact arithmetic. Limit: with floats the best alignment need not be found.", "quantifier": "all sequences, scores, gap costs, rounding functions", "why_tests_cant": "quantifies over all sequences and over the rounding errors of every sum", "anchors": ["lib/daeso/string/needleman_wunsch.py:needleman_wunsch", "lib/daeso/string/smith_waterman.py:smith_waterman", "lib/daeso/string/waterman_eggert.py:waterman_eggert"]}
{"id": "C81", "title": "Similarity measures computed with floats", "statement": "However floats are rounded (keeping order and integers up to some M, at least the sizes involved), dice, tanimoto, jaccard, the overlap coefficients, generalized_dice, generalized_jaccard, sym_token_match, the normalized Levenshtein distance and ROUGE-N return the exact quotient rounded once, so that with floats the coefficients of two sequences are between 0 and 1, symmetric, 0 exactly for sequences without common elements, 1 exactly where the exact coefficient is 1, and rank pairs as the exact coefficients do, except for ties. cosine, generalized_cosine and the normalized lcs, which divide by a rounded square root, never raise, are between 0 and 1 and do not depend on the order of the sequences (products of lengths up to M, and not a single sequence for generalized_cosine); with floats the cosine is 0 exactly without common elements, the cosines are 1 exactly where the exact ones are, and the normalized lcs of sequences that are not empty is 1 exactly if they are equal. ROUGE-L, ROUGE-S and ROUGE-SU with beta 1 are between 0 and 1, symmetric and within the 2^50th part of the exact value; ROUGE-L raises ZeroDivisionError exactly for an empty sequence. Limit: an F-measure can be above both precision and recall.", "quantifier": "all sequences, all roundings", "why_tests_cant": "quantifies over all sequences and rounding errors; a result of 1.0000000000000002 would appear only for particular sizes", "anchors": ["lib/daeso/string/similar.py: sym_token_match, cosine, tanimoto, dice, jaccard, overlap_min, overlap_max, generalized_cosine, generalized_dice, generalized_jaccard", "lib/daeso/string/levenshtein.py: normalized_levenshtein", "lib/daeso/string/lcs.py: normalized_lcs", "lib/daeso/string/rouge.py: rouge_n, rouge_l, rouge_s, rouge_su"]}
{"id": "C82", "title": "Evaluation scores computed with floats", "statement": "However floats are rounded (keeping order, doubling and integers up to the numbers of alignments), evaluating a table with at least one comparison never raises (no square root of a negative number, however the squared differences are rounded): precision and recall of each row and over all rows are the exact ones rounded once, all scores and their means are between 0 and 1, no variance is negative, each deviation is the root of its variance. If all predictions are right, all scores and means are exactly 1 and the deviations of scores exactly 0; a table without comparisons raises ZeroDivisionError. With floats each F is within the 2^50th part of the exact F and a mean of n scores within factors (1 - 2^-53)^(n+1) and (1 + 2^-53)^(n+1) of the exact mean of these scores, and each variance of n values within factors (1 - 2^-53)^(n+4) and (1 + 2^-53)^(n+4) of the exact variance of these values about the computed mean. The same, with similar exponents, for the tables of agreement of two or more annotators and for the scores of parallel text corpora. The weighted cosine never raises, is symmetric, exactly 1 for weights with themselves, and at most (1 + 2^-53)^(n+2) / (1 - 2^-53)^(n+3) for at most n weights that are not negative. Limits: the mean of equal scores can differ from them, and the weighted cosine can be more than 1.", "quantifier": "all tables of counts, all annotators, all weights, all roundings", "why_tests_cant": "quantifies over all counts and rounding errors; a math domain error of sqrt would depend on particular counts", "anchors": ["lib/daeso/pgc/evaluate.py: AlignCountsTable.run_eval, AlignCounts.run_eval", "lib/daeso/pgc/agreement.py: calculate_statistics, calculate_av, calculate_sd", "lib/daeso/ptc/evaluate.py: compute_scores", "lib/daeso/ptc/textalign.py: weighted_cosine_sim"]}
{"id": "C83", "title": "Command lines of the tools", "statement": "If the parser of a tool accepts a command line, then every string of it is accounted for: the line falls into parts, each of which is an option (by its name, a start of a long name, with a value after = or joined to a short name, or several short options joined) with as many values as it takes, or the strings of a positional argument, in order and as many as it takes; every attribute of the namespace is what these parts say (the last value, all appended values, the constant, or the default), and all attributes are set. Conversely, a line of options, files and options is accepted with these meanings, if the last option before the files takes a fixed number of values; after -- all strings are files, whatever they look like. Files that do not stand together are unrecognized; files directly after an option with any number of values are values of that option, and then files are missing; -h and -v end the parse with help and version, whatever is missing; a string that looks like an option and names none, or that starts several long names, is never accepted; and no command line makes the parser fail without a message. All this holds for the parsers of all tools in bin, which set every attribute that the tools read; pgc_agreement calls run_eval with exactly its keywords, pgc_chdir always has two prefixes. Limits: the threshold of pgc_stats can never be set to a number (its type is the string int), and ptc_n_to_id gets a list as a file name.", "quantifier": "all command lines (lists of strings), all parsers of the kind the tools build", "why_tests_cant": "quantifies over all lists of strings and all combinations of options; the tools have no tests of their command lines", "anchors": ["lib/daeso/thirdparty/argparse.py: ArgumentParser.parse_args, _parse_known_args, _parse_optional, _get_option_tuples, _match_arguments_partial, _get_values", "lib/daeso/utils/cli.py: DaesoArgParser", "bin/*.py"]}
{"id": "C84", "title": "Splitting a corpus file and joining the parts", "statement": "If a corpus file can be read and what was read can be written (banks exist or there is one, each with one format, node pairs with both nodes and a relation; the graphs wanted are in the graph bank files), and the names of the parts lead to different places that can be written, pgc_split ends without an exception: each part is a file, named after the first and the last of its graph pairs, that is read (with its graphs) as just these graph pairs (banks of the same files, graph ids, alignments, metadata, the latter but for white space if the XML is indented), with the relations and metadata of the corpus; no other file is changed. A missing file, a file that is not a corpus, or zero parts raise (OSError, the exception of reading, ZeroDivisionError) and change no file. pgc_join on the parts of a corpus of 1 to 9999 graph pairs, in whatever order the files are found, writes a corpus that is read (from a file in the working directory) as the same graph pairs in the same order, relations and metadata. With 15000 graph pairs in parts of 5000 the names do not sort by number and the order is wrong: 0001-5000, 10001-15000, 5001-10000. In general pgc_join gives the graph pairs of all files in the order of the sorted names, with the metadata of the first; without files it raises IndexError, at the first file with other relations ValueError. If pgc_split or pgc_join ends without an exception, no attribute it had to write was None: every part, and the joined file, is complete.", "quantifier": "all corpora, parts, sizes, file names, file systems with links, contents of graph banks, orders of files", "why_tests_cant": "quantifies over all corpora and file systems; the tools have no tests, and the wrong order needs more than 9999 graph pairs", "anchors": ["bin/pgc_split.py", "bin/pgc_join.py", "lib/daeso/pgc/corpus.py: __getslice__, __iadd__, purge, write, read, _check_compatibility", "lib/daeso/utils/opsys.py: multiglob"]}
{"id": "C85", "title": "Usage and help of the tools; declaring arguments", "statement": "Calls of add_argument are accepted, and give the arguments in the order of the calls, if and only if each of them is a well-formed declaration (an option with names that start with a dash and have another character, an attribute given or made from the first long name; or one positional name, required unless it can do without values; the keywords of the action) and no name is used twice. The parsers that the tools build in this way are those of C83. For plain names and metavars the usage never fails, in a terminal of any width: it has all options, then all positional arguments, with their values, in brackets if they can be left out, in parts that are not broken, and a line longer than the terminal has one part only. The help has (apart from empty lines) the usage, the description, a section of the positional arguments and one of the options with an entry for each in order, and the epilog; help texts start in one column, at most 24, and lose nothing but white space. All tools show their help in terminals of 27 columns or more; in terminals of less than 20 columns, -h ends in a ValueError. A blank help text is an IndexError, a metavar in parentheses loses them, and one with a bracket is an AssertionError if the usage does not fit a line.", "quantifier": "all sequences of calls of add_argument, all lists of arguments, names, metavars and help texts, all widths of terminals, all ways of wrapping text", "why_tests_cant": "quantifies over all declarations and all widths of terminals; the tools have no tests of their help, and the errors depend on the width", "anchors": ["lib/daeso/thirdparty/argparse.py: ArgumentParser.add_argument, format_usage, format_help, HelpFormatter, RawDescriptionHelpFormatter, Action", "lib/daeso/utils/cli.py: DaesoArgParser", "bin/*.py"]}
{"id": "C86", "title": "Why command lines are refused, and what is said", "statement": "A command line that gives no namespace asks for the help or the version, or is refused for a reason that is true: an ambiguous string starts two option names or more, which are listed all and in order, and it is the first such string before a `--` (if and only if: no other mistake is reported instead); an option that is said to lack values has not as many strings after it as it needs before the next that is no value, or needs two or more and has one joined to it; an ignored value was given with `=` to an option without values, or follows a letter for one that no option follows; an invalid number was given to an option of that type and is no numeral; too few arguments: the line falls into options with their values, positional arguments and strings left over, and some positional arguments got none - with the tools, strings are left over then only if they look like unknown options or are `--`; unrecognized arguments are exactly the strings that are left over when all positional arguments have theirs. What is written is the complete usage and one line with the name of the program, `error`, the argument by all its names, and these words; the status is 2; and 0 for the help and the version. No command line ends in an exception, except -h in a terminal that is too narrow. (As it is, the characters said to be ignored lack the first one.)", "quantifier": "all command lines of all tools (and of all well-formed parsers), all widths of terminals", "why_tests_cant": "quantifies over all command lines; which of several mistakes is reported, and about which argument, depends on all strings", "anchors": ["lib/daeso/thirdparty/argparse.py: ArgumentParser.parse_args, _parse_known_args, _parse_optional, _match_argument, _get_value, ArgumentError, error, exit", "lib/daeso/utils/cli.py: DaesoArgParser", "bin/*.py"]}
{"id": "C87", "title": "Functions memoised with the default marshaller", "statement": "The key that the default marshaller makes of a call tells it exactly: two calls have the same key if and only if they have the same function name, the same positional arguments and the same keyword arguments in the same order (arguments built of None, booleans, integers, both kinds of strings, tuples, lists and dictionaries, nested in any way; 1 and True, 'a' and u'a', (1,) and [1] are told apart). If functions that share a cache have different names, memoisation is transparent: in every sequence of calls, removals, clearings, collections and changes of the limits, with all size and age limits, each call gives the result of the function, or raises what it raises. Without limits a function is run for a call if and only if no earlier call with the same name and arguments had a result: exceptions are not kept; with an age limit it is run again just if the last run of such a call raised or its result, whose age counts from the end of that call, is too old. Keywords named func, self, key or generator are a TypeError. Functions of the same name that share a cache get each other's results; if the cache has default_fail, no function is ever run and each call is a KeyError.", "quantifier": "all functions, values of arguments, sequences of operations, times and limits", "why_tests_cant": "quantifies over all values, whose keys must differ, and over all histories of a cache", "anchors": ["lib/daeso/thirdparty/GenericCache/decorators.py: cached, default_marshaller", "lib/daeso/thirdparty/GenericCache/GenericCache.py: GenericCache.fetch_with_generator, fetch, __setitem__, remove, clear, collect"]}
{"id": "C88", "title": "Printing a matrix", "statement": "print_matrix raises if and only if the matrix (of integers) has an entry that is zero or negative, however logarithms are rounded; it raises ValueError then, and has written only the message. For other matrices it writes the message on a line of its own and one line for each row, with all numbers at the right of fields of one width, separated by commas, in brackets, provided that no logarithm is rounded below the number of digits; the width is what one of the logarithms says (with exact logarithms: the number of digits of the largest entry), and rows with the same number of entries give lines of the same length. An empty row gives a line with a closing bracket only. The printed text tells the matrix: different matrices never look the same, however logarithms are rounded.", "quantifier": "all matrices of integers, all messages, all roundings of logarithms", "why_tests_cant": "quantifies over all matrices; cost matrices with zeros, which print_matrix rejects, are usual", "anchors": ["lib/daeso/thirdparty/munkres.py: print_matrix"]}
{"id": "C89", "title": "Making directories", "statement": "makedirs never changes or loses anything on the disk: it adds directories where nothing was, whatever the path, the links and the permissions are. If the path leads to something already, also to a file, it does nothing and raises nothing. If the path begins with names that lead to a directory (through links, dots and repeated slashes) and goes on with names that are not there, then directories are made for these in order, up to the first that may not be made, and nothing else; if all may be made, the path leads to a directory afterwards. Failures are not noticed by the caller: below a file, without permission, or after a link that leads nowhere, nothing is made and nothing is raised. Only if more directories are missing than calls may be nested, there is an exception (RuntimeError), and none is made.", "quantifier": "all disks with files, directories, links and permissions, all working directories, all paths", "why_tests_cant": "quantifies over all disks and paths; failures that raise nothing are not seen by tests that look for exceptions", "anchors": ["lib/daeso/utils/opsys.py: makedirs"]}
{"id": "C90", "title": "Files for patterns", "statement": "glob gives exactly the files of the working directory that the pattern selects, each once and in the order of characters: those of the form of the pattern (* stands for any characters, ? for one, every other character for itself), hidden files only if the pattern starts with a dot; a pattern without * and ? gives the file of that name if it exists. multiglob gives the files in that order, each as often as one of the patterns selects it: a file selected by two patterns is there twice (and is joined or packed twice), and patterns or names that select nothing are passed over in silence. The order of the patterns, and the order in which the system lists the directory, never matter.", "quantifier": "all directories, file names, patterns (without classes in brackets and directories) and orders of listing", "why_tests_cant": "quantifies over all names and patterns, and over every order in which a system lists a directory; tests see one order", "anchors": ["lib/daeso/utils/opsys.py: glob, multiglob"]}
