# Formal model of emsrc/daeso-framework in Lean 4

(Generated by `tools/design.py`; the property table comes from `properties.jsonl` and `MANIFEST.json`.)

## 1. Layout
* `lean/Verif/Py.lean`, `PyNum.lean`, `PyDict.lean` – the fragment of Python that the model needs: exceptions as values
  (`Py α = Except Err α`), checked indexing, `for` and `while` loops, division, insertion-ordered dicts.
* `lean/Verif/Model/*.lean` – executable model, one file per Python module, function by function.  Every definition cites
  the file and lines of /repo that it models and says where it simplifies.
* `lean/Verif/Spec/*.lean` – small specifications that do not mention the model: edit scripts, alignments, matchings,
  recency lists, relations, windows, English-to-Lean readings of the properties.
* `lean/Verif/Lemmas/*.lean` – the proofs' helper lemmas and invariants; nothing in them has to be trusted or read.
* `lean/Verif/Props/*.lean` – the property theorems (the names in MANIFEST.json), each with an `example` beside it that
  meets the hypotheses on concrete, non-trivial data.
* `tools/` – generators (`props.py`, `claims.py`, `manifest.py`, `design.py`, `axioms.py`), coverage report
  (`coverage.py`) and the harness for seeded bugs (`seed.py`, `mutants/*.py`).
* `seeded/LOG.jsonl` – one line for every wrong program that was tried.

## 2. Trusted base
* Lean 4.33.0's kernel.  There are no axioms besides Lean's own three; `AXIOMS.md` lists for each theorem which of
  `propext`, `Classical.choice` and `Quot.sound` it uses (many need all three, because Mathlib's tactics and the real
  numbers do).  No `native_decide` or `bv_decide`; closed examples are evaluated by the kernel (`decide +kernel`, `rfl`).
* The model was written by reading the Python text; the code is not run.  What connects the two is the citation at every
  definition.  The statements in `Props` and the definitions in `Spec` and `Model` have to be read; `Lemmas` do not.

## 3. Modelling conventions
* **Python 2.**  `/` on integers rounds down, `map`/`zip`/`keys` are lists, dict order is unspecified.
* **Exceptions** are values of `Err`.  A function that can raise returns `Py α`; where the state after an exception is
  observable (caches, corpora, parsers, tables), the function returns state and error together.
* **Mutation** is state passing.  Where sharing is observable (attribute dictionaries, graph pairs, graph banks, relation
  lists, XML elements, entries of the LRU list) objects are addresses into an explicit heap.
* **Loops** are `forIn`/`forRange` with the loop body as a step function; `while` loops whose termination is not structural
  carry fuel, and the theorem states that enough fuel exists (`Err.fuel` never results) or that none suffices (divergence).
* **Numbers.**  Python integers are ℤ or ℕ.  Floats are exact (ℚ where only `+ - * /` occur, ℝ where `sqrt`/`log` occur) in
  the properties about formulas.  C79–C82 model the same functions with every operation followed by an arbitrary rounding
  function.  Overflow, underflow, `inf` and `nan` are not modelled.
* **Strings** are lists of characters; tests such as `isspace` are parameters where nothing but "the space is one" is used.
* **dicts** whose order is unspecified: either the result provably does not depend on it (the theorem quantifies over the
  order), or insertion order stands for it and the statement is about the set of results.
* **Threads.**  C62 interleaves at the level of Python statements that read or write the shared cache, under a re-entrant
  lock; C23–C26 treat operations as atomic, which C62 justifies.
* **Libraries outside /repo** (networkx DiGraph, xml.etree, expat, pickle, the file system, the clock) are modelled only as
  far as the code uses them, from their documented behaviour: DiGraph as ordered adjacency dicts; writing and reading XML as
  dropping empty texts; expat as the sequence of events of an element tree; files as their contents; clock readings as
  parameters.

## 4. What is modelled
| model | source | not modelled |
|---|---|---|
| Agreement (18 definitions) | lib/daeso/pgc/agreement.py:71-235 | reading and pickling of tables (EvalPrint has printing) |
| Align (9 definitions) | needleman_wunsch.py, smith_waterman.py, waterman_eggert.py | – |
| AlignEval (23 definitions) | lib/daeso/pgc/evaluate.py:118-300, 437-600, 685-755 | state after an exception (EvalPrint has printing) |
| AlignFloat (12 definitions) | lib/daeso/string/needleman_wunsch.py:36-114 | overflow to inf, nan and underflow; scores that mix integers and floats (a sum of integers is exact) |
| AlignPrint (18 definitions) | lib/daeso/string/needleman_wunsch.py:118-190, lib/daeso/string/waterman_eggert.py:257-261 | `str` of elements (parameters) |
| ArgDecls (19 definitions) | cli.py, gb_stats.py, pgc_agreement.py, pgc_chdir.py, pgc_cp.py, pgc_diff.py, pgc_extract_phrases.py, pgc_from_ptc.py, pgc_join.py, pgc_split.py, pgc_stats.py, pgc_zip.py, ptc_chdir.py, ptc_diff.py, ptc_eval.py, ptc_n_to_id.py | descriptions, epilogs and names of the tools (any) |
| ArgExit (8 definitions) | argparse.py | what %r makes of a string (a parameter), a broken standard error, the text of errors of defaults (there are none) |
| ArgHelp (46 definitions) | argparse.py | textwrap.wrap and % in help texts (parameters), groups of arguments of one's own, suppressed arguments, choices, tuples as metavars, indent increments other than 2, white space and capitals beyond ASCII |
| Argparse (78 definitions) | argparse.py, cli.py, gb_stats.py, pgc_agreement.py, pgc_chdir.py, pgc_cp.py, pgc_diff.py, pgc_extract_phrases.py, pgc_from_ptc.py, pgc_join.py, pgc_split.py, pgc_stats.py, pgc_zip.py, ptc_chdir.py, ptc_diff.py, ptc_eval.py, ptc_n_to_id.py, relations.py | mutually exclusive groups, sub-commands, choices, arguments from files, prefix characters other than - |
| CacheKey (13 definitions) | lib/daeso/thirdparty/GenericCache/decorators.py | floats and objects of classes as arguments, functions that use the cache themselves, functions that are not deterministic, the recursion limit of repr, locks |
| CacheRun (6 definitions) | GenericCache.py, decorators.py | – |
| CacheThreads (29 definitions) | GenericCache.py, LRUStock.py, decorators.py | `keys` and the memoised function's own steps |
| Corpus (31 definitions) | lib/daeso/gb/graphbank.py:74-98, lib/daeso/pgc/corpus.py:55-715, lib/daeso/pgc/graphpair.py:43-243 | `str`; the annotator accessors |
| Counter (16 definitions) | lib/daeso/thirdparty/counter.py:16-195 | `__repr__`, doctests |
| Creation (9 definitions) | lib/daeso/pgc/creation.py:39-125 | reading files |
| DaesoGraph (27 definitions) | lib/daeso/graph/daesograph.py:35-242 | printing |
| DiffPrint (25 definitions) | lib/daeso/pgc/diff.py:36-180, lib/daeso/utils/report.py:29-37 | byte strings that are not ASCII in graphs; `repr` of lists and `int` (parameters) |
| Etree (18 definitions) | lib/daeso/utils/etree.py:45-84 | parsing and writing files (`write` at the end) |
| EvalFloat (20 definitions) | lib/daeso/pgc/agreement.py:71-100, 183-235, lib/daeso/pgc/evaluate.py:487-600, 699-755, lib/daeso/ptc/evaluate.py:113-134, lib/daeso/ptc/textalign.py:405-415 | overflow to inf and underflow; the limits of the exponent of floats |
| EvalPrint (30 definitions) | lib/daeso/pgc/agreement.py:61-68, 238-301, lib/daeso/pgc/evaluate.py:303-404, 602-680, lib/daeso/utils/report.py:29-37 | `sqrt` and `repr` (parameters); printing before `run_eval` |
| FileGlob (7 definitions) | lib/daeso/utils/opsys.py:44-61 | classes [...] in patterns, patterns with directories |
| FromPtc (11 definitions) | bin/pgc_from_ptc.py:141-166, lib/daeso/pgc/corpus.py:1084-1126, lib/daeso/pgc/creation.py:39-110 | the command line; reading documents and graph banks (parameters) |
| GenericCache (15 definitions) | lib/daeso/thirdparty/GenericCache/GenericCache.py:40-203 | keys that are not strings, `Entry.__str__`, `Entry.__hash__` |
| Graph (27 definitions) | lib/daeso/graph/ograph.py:66-372 | networkx methods that the package does not use |
| GraphPair (16 definitions) | lib/daeso/pgc/graphpair.py:190-411 | – |
| Graphml (37 definitions) | lib/daeso/gb/graphml.py:52-258, lib/daeso/gb/parser.py:43-100 | expat; numbers and references in the text |
| HitaextDoc (21 definitions) | lib/daeso/ptc/document.py:208-349 | see section 5 |
| HitaextFile (44 definitions) | lib/daeso/ptc/document.py:37-243 | – |
| IElemTree (23 definitions) | lib/daeso/ptc/ielemtree.py:31-132 | documents with attributes that begin with an underscore |
| LRUStock (12 definitions) | lib/daeso/thirdparty/GenericCache/LRUStock.py:11-120 | `__str__` |
| Lcs (10 definitions) | lib/daeso/string/lcs.py | – |
| Levenshtein (5 definitions) | lib/daeso/string/levenshtein.py | – |
| MakeDirs (11 definitions) | lib/daeso/utils/opsys.py:31-42 | limits on lengths of paths and names, null characters, modes and umask (whether entries can be made in a directory is a parameter, also for new ones), other processes |
| MatrixPrint (4 definitions) | lib/daeso/thirdparty/munkres.py:727-759 | floats in matrices, the digits that log10 gives (a parameter), messages that cannot be encoded |
| Median (5 definitions) | lib/daeso/string/median.py:27-53 | – |
| Munkres (31 definitions) | lib/daeso/thirdparty/munkres.py:319-725 | `print_matrix`, `pad_matrix` for matrices that are not rectangular |
| MunkresFloat (4 definitions) | lib/daeso/thirdparty/munkres.py:383-439 | overflow to inf, nan and underflow; matrices that mix integers and floats |
| NGram (7 definitions) | lib/daeso/string/ngram.py, lib/daeso/string/sgram.py | – |
| NeedlemanWunsch (3 definitions) | lib/daeso/string/needleman_wunsch.py:36-114 | – |
| Number (11 definitions) | lib/daeso/string/number.py:33-154 | negative numbers |
| ODict (12 definitions) | lib/daeso/thirdparty/odict.py:14-83 | `__repr__`, pickling |
| Pair (29 definitions) | lib/daeso/pair.py:33-64 | objects other than None, integers, strings and pairs; `iter` half way |
| Pgc (39 definitions) | lib/daeso/gb/graphbank.py:41-219, lib/daeso/gb/graphstub.py, lib/daeso/pgc/corpus.py:719-1217 | the XML library; encodings |
| PgcCp (21 definitions) | bin/pgc_cp.py:42-82, lib/daeso/pgc/corpus.py:765-829 | printing, command lines, failing or interrupted writes other than at a missing attribute |
| PgcDiff (16 definitions) | lib/daeso/pgc/diff.py:36-166 | headers, comments, node texts (DiffPrint has these) |
| PgcTools (10 definitions) | bin/pgc_chdir.py:80-99, bin/pgc_join.py:68-88, bin/pgc_split.py:80-88 | command lines, reading and writing (C38 covers these) |
| PgcZip (13 definitions) | bin/pgc_zip.py:50-77, lib/daeso/gb/graphbank.py:123-138, lib/daeso/pgc/corpus.py:703-715, lib/daeso/utils/opsys.py:53-61 | printing, command lines, the zip format, warnings |
| Phrases (12 definitions) | bin/pgc_extract_phrases.py:41-65, 90-93 | the command line; the encoding as UTF-8 |
| PosixPath (5 definitions) | document.py, pgc_zip.py, ptc_chdir.py | – |
| PtcChdir (7 definitions) | bin/ptc_chdir.py:71-101 | printing, command lines |
| PtcConvert (6 definitions) | bin/ptc_n_to_id.py:54-76 | printing, command lines |
| PtcDiff (10 definitions) | lib/daeso/ptc/diff.py:35-100 | encodings; entries printed before an exception |
| PtcEval (10 definitions) | lib/daeso/ptc/evaluate.py:33-134 | heads and number formats; rows printed before an exception |
| RelPath (13 definitions) | lib/daeso/gb/graphbank.py:138, lib/daeso/pgc/corpus.py:1100-1108, 1209-1217 | the result of realpath for link loops, leading // |
| Rouge (8 definitions) | lib/daeso/string/rouge.py | – |
| Similar (14 definitions) | lib/daeso/string/similar.py | – |
| SimilarFloat (22 definitions) | lib/daeso/string/similar.py:35-243 | overflow to inf and underflow; the limits of the exponent of floats |
| SmithWaterman (21 definitions) | lib/daeso/string/smith_waterman.py:38-128, lib/daeso/string/waterman_eggert.py:46-254 | – |
| SplitJoin (18 definitions) | bin/pgc_join.py:68-90, bin/pgc_split.py:74-88, lib/daeso/pgc/corpus.py:765-840 | messages to stderr, torn writes other than at a missing attribute, glob (an arbitrary list of files) |
| Stats (38 definitions) | lib/daeso/gb/gbstats.py:69-257, lib/daeso/pgc/pgcstats.py:74-279, lib/daeso/stats/table.py:192-215 | printing (C65), command lines |
| StatsCorpus (17 definitions) | lib/daeso/stats/corpus.py:42-173 | pgc_stats (Model/Stats), printing, failing writes |
| StatsTable (40 definitions) | lib/daeso/stats/table.py:33-189 | float literals with exponents, inf, nan |
| TextAlign (19 definitions) | lib/daeso/ptc/textalign.py:83-463 | the constructor's default functions apart from those in C55 |
| TfIdf (10 definitions) | lib/daeso/string/tf_idf.py:42-229 | – |
| Threads (17 definitions) | lib/daeso/thirdparty/GenericCache/decorators.py:47-61 | – |

## 5. What is not modelled
* `thirdparty/pexpect.py`, `setup.py`, `release.py`: a copy of another project that no other file imports, packaging.
* Of `thirdparty/argparse.py` what no tool uses: sub-commands, mutually exclusive groups, choices, arguments from files.
  Usage, help and error messages are modelled (C85, C86).  Parsing itself, with all options the tools declare, is modelled (C83).
* Messages of progress and warnings on stderr, `munkres.print_matrix`, `ODict.__repr__`.  The printed results that a user
  reads are modelled: score matrices and alignments, tables of evaluation, agreement and statistics, differences, phrases
  (C64, C65, C73, C75–C77).
* Overflow, underflow, `inf` and `nan` of floats.  Rounding is modelled in C79–C82 by an arbitrary rounding function with the
  properties stated there, of which rounding to 53 binary digits is proved to be an instance.
* Character encodings, except where an encoding error is part of a property (C40, C73, C77, C78).
* `string/median.py: generalized_median_string` (raises NotImplementedError), `decorators.py: verbose` (prints).
* Crash points inside a single file write, other than where the writer itself fails (C71, C74, C84: a file broken off at a
  missing attribute); the code has no transactional file updates for which more could be stated.

## 6. Method
* **Dynamic programming** (C01–C05, C14–C17): the table invariant says that each cell is the optimum over an inductively
  defined class of edit scripts or alignments of the prefixes; optimality by induction over that class.
* **Refinement** (C21–C27, C31–C33, C57, C62): an abstraction relation to a small specification (list of entries, multiset,
  recency list, finite relation) kept by every operation, hence for every history.
* **State machines over documents** (C38–C39, C47–C48, C61): simulation by structural induction over the element tree.
* **Loop invariants and counting** (C41–C46, C49–C55, C60, C63–C65).
* **Munkres** (C20): invariants of the step machine (covers, stars, primes, non-negative reduced costs), an alternating path
  argument, weak duality for optimality, and a lexicographic measure for termination.

Where the code violates what a user would expect, the property is stated as what does hold, and the violation is a theorem of
its own with a concrete program (`…_wrong`, `…_diverges`, `…_not_…` and so on); they are named in the notes of the table.

Each theorem is tested against wrong programs: `tools/seed.py` edits one definition of the model as a realistic bug would,
re-elaborates the modules concerned and reports which theorems fail.  An edit that falsifies the English claim while all
theorems still prove is a survivor; the theorem is then tightened and the tightening recorded in `seeded/LOG.jsonl`.

## 7. Properties
For each property: the modules of the model and the specification, how it is proved, the theorems, and limits.

### C01 Levenshtein distance is the minimal edit cost
levenshtein(s1, s2) returns exactly the smallest number of single-element insertions, deletions and substitutions that turn s1 into s2: some edit script of that cost exists and none is cheaper, whichever argument is longer.

*Proof.* Model/Levenshtein runs the two-row loop. Invariant: the row after i steps holds the distances of the first i elements to every prefix. Spec: inductive edit scripts with costs; lower bound by induction over scripts, upper bound by building one.

*Theorems* (proved). `Props.Levenshtein`: `levenshtein_minimal`

*Limits.* loop invariant + optimality over inductive edit scripts

### C02 Levenshtein distance is a metric
levenshtein is 0 exactly on equal sequences, symmetric in its arguments, and satisfies the triangle inequality.

*Proof.* From C01 only: scripts of cost 0 keep the sequence, scripts can be reversed and composed.

*Theorems* (proved). `Props.Levenshtein`: `levenshtein_zero_iff`, `levenshtein_symm`, `levenshtein_triangle`

*Limits.* metric laws, from minimality over edit scripts

### C03 Normalised Levenshtein distance is in [0,1]
normalized_levenshtein never raises, is between 0 and 1, is 0 exactly on equal sequences, is symmetric, and is 0 for two empty sequences; the raw distance lies between the length difference and the longer length.

*Proof.* From C01, with explicit scripts for the bounds; the quotient in ℚ.

*Theorems* (proved). `Props.Levenshtein`: `levenshtein_bounds`, `normalized_value`, `normalized_range`, `normalized_symm`

*Limits.* exact rationals in place of floats

### C04 lcs returns a longest common subsequence and never fails
lcs(a, b) terminates without a lookup error and returns a sequence that is a subsequence of both a and b and at least as long as every other common subsequence.

*Proof.* Table as a dict with KeyError; invariant: each entry is the length of a longest common subsequence of the prefixes (Mathlib's Sublist); the trace back keeps 'what is collected plus what is left is optimal' and never leaves the table.

*Theorems* (proved). `Props.Lcs`: `lcs_correct`

### C05 Normalised LCS is bounded and symmetric
the length of lcs is symmetric in its arguments; normalized_lcs is in [0,1], is 0 when either input is empty, is 1 on equal non-empty inputs, and only then.

*Proof.* From C04.

*Theorems* (proved). `Props.Lcs`: `lcs_length_symm`, `normalized_lcs_props`

*Limits.* exact rationals in place of floats

### C06 n-gram extraction enumerates exactly the contiguous windows
n_gram_slices yields, in left-to-right order, every contiguous window of length n of the padded sequence and nothing else; there are max(0, len + 2*pad - n + 1) of them; without padding every window is an infix of the input. n_gram_slices_range agrees with n_gram_slices for every n in the range.

*Proof.* Slices computed index by index; windows characterised by `drop`/`take`.

*Theorems* (proved). `Props.NGram`: `pad_length`, `n_gram_count`, `n_gram_nth`, `n_gram_complete`, `n_gram_mem_iff`, `n_gram_strings_eq`, `n_gram_range_nopad`, `n_gram_range_pad`, `n_gram_range_sizes`

### C07 Skip-bigram extraction enumerates exactly the ordered pairs within the skip limit
skip_bigram_slices yields exactly the pairs (x_i, x_j) with i<j and at most `limit` elements skipped, each once per position pair, in lexicographic position order; without limit there are n(n-1)/2.

*Proof.* Induction over the recursion; positions characterised independently as pairs i < j ≤ i+k+1.

*Theorems* (proved). `Props.NGram`: `skip_bigrams_eq`, `skipPositions_mem`, `skipPositions_nodup`, `skip_bigrams_count`, `skip_bigrams_zero`, `padded_skip_bigrams_eq`

### C08 Set-overlap coefficients are in [0,1] and symmetric
dice, jaccard, tanimoto, cosine, overlap_min and overlap_max never raise, are in [0,1], are symmetric, and are 0 exactly when the sequences share no element.

*Proof.* Finset cardinalities in ℚ, `sqrt` in ℝ.

*Theorems* (proved). `Props.Similar`: `dice_coefficient`, `jaccard_coefficient`, `tanimoto_coefficient`, `cosine_coefficient`, `overlap_min_coefficient`, `overlap_max_coefficient`, `match_counts`, `coefficient_values`

*Limits.* exact numbers in place of floats

### C09 Overlap coefficients equal 1 on identical inputs (as sets)
the documentation says sequences are regarded as sets, so a coefficient of two inputs with the same non-empty element set should be 1. True of jaccard for all inputs (and only then); for dice, cosine, tanimoto and overlap_* it holds for duplicate-free inputs and fails with duplicates (dice('aa','aa') = 1/2).

*Proof.* Cardinalities; counterexample by evaluation.

*Theorems* (proved). `Props.Similar`: `jaccard_eq_one`, `dice_eq_one`, `tanimoto_eq_one`, `overlap_max_eq_one`, `cosine_eq_one`, `overlap_min_eq_one`, `dice_not_one_on_identical`

*Limits.* full claim of the documentation is false of the code: counterexample dice_not_one_on_identical; the other theorems are for duplicate-free inputs

### C10 Generalised coefficients extend the binary ones
generalized_dice/cosine/jaccard over a list of sequences are in [0,1] (the cosine only for lists other than one single sequence, where it is the number of different elements over the root of the length and can exceed 1), do not depend on the order of the list, equal the binary coefficient on two sequences, and are 0 on the empty list.

*Proof.* Sums of products in ℚ/ℝ, Cauchy–Schwarz for the cosine.

*Theorems* (proved). `Props.Similar`: `gen_dice_range`, `gen_jaccard_range`, `gen_cosine_range`, `gen_cosine_singleton_exceeds`, `gen_two`, `gen_values`

*Limits.* generalised cosine leaves [0,1] on a one-element list (gen_cosine_singleton_exceeds)

### C11 ROUGE-N recall is in [0,1]
rouge_n never raises and is non-negative; it is at most 1 whenever no n-gram occurs more often in the candidate than in the references. For general candidates the bound fails because repeated candidate n-grams are counted without clipping.

*Proof.* Counts of n-grams as multisets.

*Theorems* (proved). `Props.Rouge`: `rouge_n_value`, `rouge_n_range`, `rouge_n_nonneg`, `rouge_n_exceeds_one`, `rouge_n_self`

*Limits.* upper bound false without clipping (rouge_n_exceeds_one)

### C12 ROUGE-L and ROUGE-S scores are in [0,1], symmetric at beta=1
rouge_l and rouge_s/rouge_su are the F measure of the LCS length, or of the number of common skip-bigrams, over the sizes of the inputs; they are in [0,1] for any non-negative beta whenever they return at all, are symmetric for beta=1, equal 1 on identical input (rouge_s exactly for inputs without repeated skip-bigrams: repetitions are counted in the sizes only), and fail with a zero division exactly on inputs with no tokens (rouge_l) or no skip-bigrams (rouge_s).

*Proof.* From C04 and C07 and counting.

*Theorems* (proved). `Props.Rouge`: `rouge_l_value`, `rouge_s_value`, `rouge_su_value`, `rouge_l_range`, `rouge_l_error`, `rouge_l_symm`, `rouge_l_self`, `rouge_s_range`, `rouge_s_error`, `rouge_s_symm`, `rouge_s_self`, `rouge_s_self_iff`, `rouge_s_self_not_one`, `rouge_su_range`

*Limits.* rouge_s on identical input is 1 only for duplicate-free skip bigrams (rouge_s_self_not_one)

### C13 median returns an element with minimal sum of distances
median returns a member of the input whose summed distance to all members is minimal, the first such; it fails exactly on the empty input.

*Proof.* Invariant of the triangular loop: partial row sums; then minimum over the rows.

*Theorems* (proved). `Props.Median`: `median_minimal`, `median_empty`

### C14 Needleman-Wunsch score is optimal
for a constant gap cost, needleman_wunsch returns the maximum total score over all global alignments. For element-dependent gap costs it does not (the border is initialised wrongly).

*Proof.* Table invariant over inductive alignments, score as sum over columns.

*Theorems* (proved). `Props.NW`: `needleman_wunsch_optimal`, `nw_nonuniform_not_optimal`

*Limits.* optimal for constant gap costs; false for element-dependent costs (nw_nonuniform_not_optimal)

### C15 Needleman-Wunsch alignment is valid and attains the score
the traceback terminates without lookup errors and returns strictly increasing in-range index pairs, whatever the gap costs; for a constant gap cost their score (pairs plus gaps for unaligned elements) equals the returned score.

*Proof.* Trace back invariant: the columns collected so far align the suffixes and sum to the difference of the cells.

*Theorems* (proved). `Props.NW`: `needleman_wunsch_valid`, `needleman_wunsch_matrix`, `needleman_wunsch_optimal`

*Limits.* for constant gap costs

### C16 Smith-Waterman score is the best local alignment score
smith_waterman returns the maximum score over all local alignments together with a valid alignment attaining it, and fails exactly when no local alignment has positive score, for gap costs that are not positive. With a positive gap cost it is not optimal.

*Proof.* As C14 with floor 0 and maximum over all cells.

*Theorems* (proved). `Props.SW`: `smith_waterman_optimal`, `smith_waterman_matrix`, `smith_waterman_total`, `sw_positive_gap_not_optimal`

*Limits.* optimality needs gap costs <= 0, counterexample for positive ones

### C17 Waterman-Eggert returns at most `limit` positive local alignments
waterman_eggert returns at most limit alignments (any number when limit is 0/None), each strictly increasing and in range; the first is a best local alignment, a smaller limit gives a prefix of the result, and two successive alignments share no pair of elements; the list of matrices has, for each alignment, the matrix it was read from, starting at the highest score, and the matrix after it has zeros for its pairs.  The documentation claims more, and is wrong: alignments can intersect, can have a non-positive score or be empty, and without a limit the function may never return.

*Proof.* Invariants over the search loop with `limit`; violations by evaluation, divergence by showing that no fuel suffices.

*Theorems* (proved). `Props.SW`: `waterman_eggert_limit`, `waterman_eggert_valid`, `waterman_eggert_first_optimal`, `waterman_eggert_prefix`, `waterman_eggert_consecutive_disjoint`, `waterman_eggert_scores`, `waterman_eggert_not_positive`, `waterman_eggert_diverges`, `waterman_eggert_intersecting`

*Limits.* documented non-intersection is false (waterman_eggert_intersecting), and the search may not terminate (waterman_eggert_diverges)

### C18 tf-idf weights are non-negative and consistent
document frequency of a term is the number of documents containing it (between 1 and N); term frequencies of a non-empty document sum to 1; weights are >= 0, 0 exactly when the term is absent or occurs in every document; normalised weights are <= 1.

*Proof.* Counting for tf and df; monotonicity of log.

*Theorems* (proved). `Props.TfIdf`: `term_frequencies_correct`, `document_frequencies_correct`, `tf_idf_value`, `idf_value`, `idf_bounds`, `weight_bounds`, `tf_sum_one`, `tf_idf_one_document`

*Limits.* real numbers in place of floats

### C19 Dutch number spelling is the specified one, and identifies the number below a million
spell_out_number spells every number below 10^24 by its groups of three digits (units before tens, no 'een' before honderd or duizend, 'nul' for an empty last group, hundreds for four digits if preferred), raises IndexError from 10^24 on, and two numbers are spelled alike only if they are at least a million and differ only in having no thousands or one thousand: 1000000 and 1001000.

*Proof.* Digit recursion against a compositional specification of Dutch numerals; injectivity by comparing word lists.

*Theorems* (proved). `Props.Number`: `spell_words`, `spell_words_hundreds`, `spell_injective_iff`, `spell_injective`, `spell_domain`, `spell_not_injective`

*Limits.* the words equal an independent specification for all n < 10^24; which numbers are spelled alike is characterised exactly; IndexError from 10^24 on

### C20 Munkres computes a minimum-cost complete assignment
for every square matrix of integer costs, Munkres.compute terminates and returns pairs that form a complete one-to-one assignment whose total cost is minimal among all assignments; for rectangular matrices the pairs are one-to-one, in range, and cover the smaller side at minimal cost.

*Proof.* See section 6.

*Theorems* (proved). `Props.Munkres`: `munkres_optimal`, `munkres_empty`, `make_cost_matrix_entries`

*Limits.* exact rationals in place of floats; rectangular matrices (the documented domain); includes termination and absence of index errors in the path array

### C21 OrderedDict behaves as an insertion-ordered map
after any history of set/delete/popitem/clear/setdefault/pop operations, lookup gives the last value set since the last delete, and iteration gives keys without duplicates in order of first insertion since last absence; popitem is LIFO; deleting an absent key raises KeyError and changes nothing.

*Proof.* Refinement to a list of entries over all histories.

*Theorems* (proved). `Props.ODict`: `ordered_dict_refines`, `fromkeys_order`

*Limits.* refinement to a list of entries over all histories

### C22 Counter behaves as a multiset
after updating from any iterable the count of x is its number of occurrences; +, -, |, & give per-element sum, truncated difference, maximum, minimum with only positive counts kept; elements() reproduces the multiset; most_common is sorted by count descending.

*Proof.* Refinement to counts; operators pointwise.

*Theorems* (proved). `Props.Counter`: `counter_keys_unique`, `counter_update`, `counter_of_iterable`, `counter_update_mapping`, `counter_copy`, `counter_del`, `counter_operators`, `counter_elements`, `elements_of_counter`, `most_common_all`, `most_common_n`

### C23 GenericCache never exceeds its maximum size
in every history of inserts, fetches, removes, collects and reconfigurations in which operations terminate, the number of cached entries is at most maxsize after each insert (unlimited when maxsize is 0).

*Proof.* Invariant over all histories of the cache operations.

*Theorems* (proved). `Props.GenericCache`: `cache_size_bounded`, `cache_limit`

*Limits.* any history, re-inserts included

### C24 GenericCache evicts the least recently used entry and returns the latest value
a fetch of a key returns the value of the last insert of that key, unless removed, expired or evicted; the key evicted by an insert is the one least recently inserted-or-fetched (for histories that never re-insert a live key).

*Proof.* Refinement to a recency list.

*Theorems* (proved). `Props.GenericCache`: `cache_refines`, `cache_recency_order`, `cache_evicts_least_recent`, `cache_retains`

*Limits.* for histories without re-insertion of a live key

### C25 GenericCache operations terminate
every operation terminates in histories that do not re-insert a live key. Otherwise not: re-inserting a live key leaves a stale list node, and a later insert into the full cache loops forever.

*Proof.* Refinement gives termination; the diverging history is shown to exceed every fuel.

*Theorems* (proved). `Props.GenericCache`: `cache_refines`, `cache_insert_diverges`

*Limits.* terminates for histories without re-insertion of a live key; false otherwise (cache_insert_diverges)

### C26 Memoisation is transparent
calling a function through the cached decorator any number of times with any arguments returns what the undecorated (pure) function returns.

*Proof.* Invariant: every live entry holds the function's value.

*Theorems* (proved). `Props.GenericCache`: `memo_transparent`, `memo_default_fail`

*Limits.* caches with default_fail off (the default); with it on the first call raises (memo_default_fail)

### C27 Ordered digraph keeps successor and predecessor views consistent
after any sequence of add_node/add_edge/remove operations, v is a successor of u iff u is a predecessor of v with the same edge data, every endpoint is a node, and successors are listed in order of first insertion.

*Proof.* Refinement to a set of nodes and edges; both adjacency views represent it.

*Theorems* (proved). `Props.Graph`: `odigraph_refines`, `odigraph_views_agree`

*Limits.* every history of the mutators; nodes and edge dictionaries as heap objects

### C28 terminal_yield lists each reachable terminal once and terminates
terminal_yield(n) terminates on every graph including cyclic ones and returns exactly the terminals reachable from n, each once; on an ordered tree the order is left-to-right; a terminal is a node without successors that has tokens that are not all punctuation, unless punctuation or empty nodes are asked for; terminals() lists them in the order of the nodes.

*Proof.* Depth-first search invariant; termination by the number of unvisited nodes.

*Theorems* (proved). `Props.DaesoGraph`: `terminal_yield_reachable`, `terminal_yield_tree`, `isTerminal_exact`, `isTerminal_iff`, `terminals_exact`

*Limits.* every graph built through the API; start node in the graph

### C29 Graph edges only between existing nodes
DaesoGraph.add_edge raises ValueError and leaves the graph unchanged when an endpoint is missing; so every edge of any DaesoGraph built through the API joins existing nodes, and add_edges_from adds precisely the prefix of edges before the first bad one.

*Proof.* Induction over the history.

*Theorems* (proved). `Props.DaesoGraph`: `add_edge_checked`, `edges_join_nodes`, `add_edges_from_prefix`

### C30 Token strings round-trip
set_node_token_string followed by get_node_token_string returns the same string for every string; for the whole-graph token string it returns the whitespace-normalised string, so it is the identity exactly on normalised strings.

*Proof.* `split` of `join`.

*Theorems* (proved). `Props.DaesoGraph`: `node_token_string_roundtrip`, `node_tokens_roundtrip`, `node_tokens_empty`, `graph_token_string_roundtrip`

*Limits.* strings as lists of characters; any white space test that includes the space

### C31 GraphMapping add/get/del act as a finite map over node pairs
add_align then get_align on the same pair gives the relation; other pairs are unaffected; del_align removes exactly that pair and raises if absent; __len__ is the number of aligned pairs; no node remains registered without an alignment.

*Proof.* Refinement to a finite relation.

*Theorems* (proved). `Props.GraphPair`: `mapping_refines`

*Limits.* every history, deep copies included; source and target names may coincide; networkx DiGraph modelled from its documented behaviour

### C32 GraphMatching is always one-to-one
after any history of add_align/del_align each source node has at most one target and each target node at most one source; the newest alignment always wins, and only conflicting alignments are dropped.

*Proof.* Invariant: one-to-one.

*Theorems* (proved). `Props.GraphPair`: `matching_refines`, `matching_one_to_one`, `matching_partners`

### C33 Alignment equality is extensional
two graph pairs' alignments compare equal exactly when they have the same set of labelled node pairs, independent of the order of insertion; so the comparison is an equivalence relation.

*Proof.* Equality of adjacency dicts is equality of the relations they represent.

*Theorems* (proved). `Props.GraphPair`: `alignments_equal_iff`, `alignments_equal_of_same_map`

### C34 roots_aligned reports whether the roots are aligned
roots_aligned() should be true iff the source root and target root are aligned. This holds when both roots have the same name; otherwise the function looks up the wrong target node: it tells whether the source root is aligned to a target node with the name of the source root, and is false for aligned roots with different names.

*Proof.* Unfolding and a counterexample.

*Theorems* (proved). `Props.GraphPair`: `roots_aligned_computes`, `roots_aligned_wrong`

*Limits.* false of the code (roots_aligned_wrong); true when the roots have the same name

### C35 Corpus sequence operations keep relation sets consistent and obey list laws
corpus + corpus, += and slice assignment succeed only when relation lists agree, otherwise raise ValueError and leave the corpus unchanged; a slice, its deletion and its assignment concern exactly the pairs at the positions a Python slice denotes, and c * n repeats the pairs n times; slicing and concatenation obey c[:k] + c[k:] == c; setting relations always leaves them sorted.

*Proof.* List laws over a heap of graph pairs; every operation compared to the list operation.

*Theorems* (proved). `Props.Corpus`: `set_relations_sorted`, `set_relations_aliases`, `concat_checked`, `slice_concat`, `setslice_self`, `delslice_complement`, `slice_exact`, `delslice_exact`, `setslice_exact`, `mul_exact`, `append_exact`

*Limits.* corpora, graph pairs and relation lists as heap objects

### C36 Every list method of a corpus works
ParallelGraphCorpus is documented as a list; pop should return the removed pair, insert should insert, != should negate ==, n*corpus should equal corpus*n. Of these, pop removes the pair at the given position and nothing else; but it returns None for every corpus, and insert, != and n*corpus raise for every corpus.

*Proof.* Characterisation of `pop`; the others by the exception they raise.

*Theorems* (proved). `Props.Corpus`: `pop_removes`, `pop_wrong`, `insert_ne_rmul_wrong`

*Limits.* false of the code for pop's result, insert, != and n*corpus (pop_wrong, insert_ne_rmul_wrong)

### C37 purge shares equal graph banks and changes nothing else
after purge any two graph pairs whose banks are equal share the identical bank object; alignments, graphs and bank files are unchanged; purge is idempotent.

*Proof.* Invariant of the purge loop: equal banks seen so far share one object.

*Theorems* (proved). `Props.Corpus`: `purge_shares`, `purge_idempotent`, `purge_missing_raises`, `purge_unaligned_pair`

*Limits.* bank files exist or paths coincide; otherwise OSError (purge_missing_raises)

### C38 Writing then reading a parallel graph corpus is the identity
reading the file written for a corpus (plain or pretty printed) gives back the same relations, corpus metadata, and graph pairs in the same order with the same bank files and formats, graph ids, metadata and alignments, banks for one file being merged; with sparse loading all graphs are there. This holds when relations are sorted, stripped and not empty, shown paths lead back to the bank files, and metadata has children and holds no tags of the corpus format: childless metadata is dropped, a <node_pair> in metadata becomes an alignment, an empty relation makes the file unreadable.

*Proof.* Generator and parser composed; induction over the events of the written tree.

*Theorems* (proved). `Props.Pgc`: `write_read`, `write_read_banks`, `pprint_read`, `write_read_sparse`, `node_pair_in_metadata`, `empty_relation`

*Limits.* the XML library's write and read is modelled as dropping empty texts; the path shown must lead back to the file (hypothesis files)

### C39 The corpus reader rejects dangling references
a graph_pair element with a missing required attribute or a bank id not declared before it raises DaesoError; a corpus that is read has exactly one graph pair for each graph_pair element, in order, with the banks and graph ids given there.

*Proof.* Parser state machine run over arbitrary documents.

*Theorems* (proved). `Props.Pgc`: `pairs_as_declared`, `references_resolved`, `dangling_reference`, `relations_as_declared`

### C40 XML comparison is an equivalence and indentation is idempotent
on elements whose texts and tails are ASCII, etree.equals is reflexive, symmetric and transitive and holds exactly when tags, attributes, stripped texts and tails, and children agree (a non-ASCII text or tail makes it raise UnicodeEncodeError); etree.indent puts every child and every end tag after children on a line of its own with two spaces per level, is idempotent and changes only blank text and tails; it never changes tags, attributes or non-blank text.

*Proof.* Structural (mutual) induction over trees.

*Theorems* (proved). `Props.Etree`: `equals_iff`, `equals_refl`, `equals_symm`, `equals_trans`, `equals_non_ascii_raises`, `indent_respaced`, `indent_idempotent`, `indent_layout`, `indent_not_equal`

### C41 Alignment evaluation counts are set cardinalities
after adding corpus pairs, per-relation true/pred/common counts are the numbers of reference, predicted and shared labelled alignments, common <= min(true,pred), and the unlabelled true and pred counts are the sums over relations.

*Proof.* Counting loop equals cardinalities of finite sets of pairs.

*Theorems* (proved). `Props.AlignEval`: `counts_are_cardinalities`, `common_le`, `any_is_sum`, `any_common_ge`, `unknown_relation`, `unequal_lengths`

*Limits.* the relations do not contain the reserved one or the empty one

### C42 Precision, recall and F are in [0,1] and well-behaved
precision, recall and F-score derived from counts are in [0,1], never raise, swap under exchange of true and predicted, equal 1 exactly on perfect agreement, and F lies between precision and recall.

*Proof.* Arithmetic in ℚ on the counts.

*Theorems* (proved). `Props.AlignEval`: `measures_are`, `beta_outside`, `measures_range`, `measures_swap`, `f_score`, `measures_perfect`

*Limits.* exact numbers

### C43 Micro/macro evaluation summaries are the stated aggregates
summed counts over corpora equal counts over the concatenation; macro averages are means of per-relation scores and lie between the minimum and maximum; variances are not negative. The relations must be distinct and not empty: a relation given several times distorts the overall macro average, no relations or no corpora give ZeroDivisionError.

*Proof.* Sums over rows; variance by algebra.

*Theorems* (proved). `Props.AlignEval`: `table_summary`, `no_rows`, `macro_between`, `variances`, `single_corpus`, `overall`, `sums_of_concatenation`, `one_by_one_or_concatenated`, `no_relations`, `duplicate_relations`

*Limits.* exact numbers

### C44 Alignment diff partitions the alignments
the diff of two corpora puts every alignment of either of two corresponding graph pairs into exactly one of: identical, relation-different, only-first, only-second; swapping the arguments swaps the latter two and the diff is empty iff the alignments are equal. Corpora of different lengths are refused. This holds when all relations are compared; a restriction to some relations loses alignments whose relation was changed to one outside the restriction, and words_only always raises AttributeError.

*Proof.* The printed entries as a partition of the union of two relations.

*Theorems* (proved). `Props.PgcDiff`: `diff_partition`, `diff_empty`, `diff_exchange`, `diff_lengths`, `words_only_fails`, `words_only_inverted`, `restricted_lost`

*Limits.* all relations compared, labels not empty, node ids numeric; restricted relations and words_only violate (restricted_lost, words_only_fails)

### C45 Agreement tables: cross evaluation covers all ordered pairs and diagonal-free means
cross evaluation of at least two differently named annotators runs exactly the ordered pairs of different annotators, each once; the tables hold the scores of the column annotator as prediction of the row annotator; column means ignore the diagonal and lie within the range of the entries; variances are non-negative; exchanging two annotators exchanges precision and recall. words_only keeps exactly the alignments of two terminal nodes. A single annotator gives ZeroDivisionError.

*Proof.* Loop over ordered pairs of annotators; sums without the diagonal.

*Theorems* (proved). `Props.Agreement`: `table_statistics`, `cross_evaluation`, `table_bounds`, `exchanged_annotators`, `single_annotator`, `wrong_number`, `default_names`, `words_only_keeps_words`

*Limits.* exact numbers, variances instead of standard deviations; annotator names distinct and not mean, SD or overall

### C46 Corpus creation filter keeps exactly the admissible pairs
creating a graph corpus from a text corpus makes a graph pair for exactly those links whose element tags are requested, whose token counts are within bounds and whose token difference is at least the minimum, in order; the difference is symmetric and 0 iff the same words occur; a link whose elements or graphs do not exist raises KeyError, and links by number instead of id cannot be used.

*Proof.* The filter loop against a predicate on pairs.

*Theorems* (proved). `Props.Creation`: `token_diff`, `creation_exact`, `creation_broken`, `numbered_links_fail`

### C47 Sparse graph bank loading is all-or-nothing
for a corpus read with stubs and without a graph aligned with itself, loading a bank replaces every stub of the bank, in all graph pairs, by the graph of the same id from the file, or raises an error before any graph pair changes (DaesoError for a missing file or graph); after reading with sparse loading no stub is left. A graph aligned with itself makes sparse loading fail halfway with AssertionError.

*Proof.* Reader state machine with the three loading modes.

*Theorems* (proved). `Props.Pgc`: `load_all_or_nothing`, `sparse_full`, `all_full`, `none_stubs`, `write_read_sparse`, `self_aligned_unreadable`, `self_aligned_half_loaded`

### C48 Sparse parsing equals full parsing restricted to the requested ids
for every graph file, sparse parsing with a set of ids yields exactly the graphs full parsing yields for these ids.

*Proof.* Simulation of the sparse by the full parser, element by element.

*Theorems* (proved). `Props.Graphml`: `sparse_eq_full`, `sparse_missing`, `sparse_string`

*Limits.* For files without nested graphs; an example shows that nesting breaks it. Event handlers modelled over element trees; expat is not.

### C49 Corpus statistics are internally consistent
the counts are exactly those of the graph pairs, alignments, graphs, tokens and nodes that are not excluded by the options; aligned plus unaligned equals total for graphs and nodes, singly plus multiply aligned equals aligned, relation counts add up to the number of node pairs, percentages of relations to 100, overall counts are the sums over corpora; but failed parses are also counted in graphs that are not, an unknown relation raises, and banks alone never report alignments.

*Proof.* Sums over graph pairs in ℚ.

*Theorems* (proved). `Props.Stats`: `stats_exact`, `unknown_relation`, `identities`, `percentage`, `percentages_add`, `banks_alone`, `banks_alone_exact`, `average_exact`, `threshold_raises`

*Limits.* exact numbers instead of floats

### C50 Splitting a corpus loses nothing
pgc_split's parts concatenate to the corpus, each has the computed size except the last, none is empty, their file names differ, and there are at most `parts`; but not always exactly `parts` (as many pairs as parts give half as many); a negative number of parts or size writes nothing; pgc_join of the parts gives the pairs of the corpus back, and joining corpora with other relations raises.

*Proof.* Integer arithmetic of the split points; `flatten`.

*Theorems* (proved). `Props.PgcTools`: `split_covers`, `split_count`, `split_nothing`, `join_concat`, `join_split`, `join_purge`

### C51 Injected alignments are extracted unchanged
injecting alignments between elements of a parallel text document and extracting them gives back each link as often as it was there, with the same tags and numbers (or ids), in document order of the source elements; a link to no element raises, but numbers below 1 silently count from the end.

*Proof.* Loop over the links with a frame condition (`SameBut`) for all other elements.

*Theorems* (proved). `Props.HitaextDoc`: `inOrder_perm`, `inject_extract_n`, `inject_extract_id`, `extract_stable`, `unknown_element`, `number_zero`, `unknown_method`, `incomplete_link`, `incomplete_id_link`

*Limits.* elements are distinct objects

### C52 Indexed element trees address the right text
after indexing, the text of each element is the concatenated text of its subtree, spans of children are nested in the parent's and disjoint in order, and the n-th element of a tag in document order has number n. Ignored elements have no text in a document indexed for the first time, but keep an old span otherwise, and ignored elements without children are not marked as ignored.

*Proof.* Mutual induction over trees; offsets into the text of the document.

*Theorems* (proved). `Props.IElemTree`: `document_text`, `element_text`, `ignored_text`, `ignored_text_stale`, `spans_nested`, `spans_ordered`, `numbering`, `id_lookup`, `no_alignments`, `ignored_flags`

### C53 Non-crossing filter yields a maximal non-crossing subset
the filtered alignments are a subset of the input at or above the threshold with no two crossing, and any dropped one at or above the threshold crosses a kept better-or-equal one.

*Proof.* Greedy loop invariant: kept links do not cross, every dropped link crosses a kept better one.

*Theorems* (proved). `Props.TextAlign`: `no_cross`, `scope_no_cross`

*Limits.* for every descending sort, as ties are broken by object addresses

### C54 Threshold filtering and clearing
threshold filtering keeps exactly entries above the threshold; clearing alignments removes exactly the alignments mentioning the given tags.

*Proof.* Filter laws.

*Theorems* (proved). `Props.TextAlign`: `threshold_keeps`, `clear_removes`

### C55 Weighted cosine similarity is in [0,1]
weighted cosine similarity of non-negative weights is in [0,1], symmetric, and 1 for identical non-zero vectors.

*Proof.* Cauchy–Schwarz.

*Theorems* (proved). `Props.TextAlign`: `weighted_cosine_range`, `weighted_cosine_value`, `weighted_cosine_comm`, `weighted_cosine_self`, `weighted_cosine_zero`

*Limits.* real numbers instead of floats

### C56 Directory change rewrites exactly the matching prefix
pgc_chdir replaces the prefix of each file path that starts with from_path and leaves all other paths alone; applying it with the arguments exchanged undoes it exactly when no other path starts with to_path (or both are the same); an empty path element raises.

*Proof.* Prefix arithmetic on strings.

*Theorems* (proved). `Props.PgcTools`: `chdir_exact`, `chdir_undo`, `chdir_empty`

### C57 Recency list integrity
after any history of add (of new items), update, discard and clear, iterating over an LRUStock gives its items from least to most recently updated, the backward walk gives the reverse, pop shows the oldest and size counts them.

*Proof.* Doubly linked list over a heap represents a list; every pointer operation.

*Theorems* (proved). `Props.LRUStock`: `lru_list_integrity`, `lru_double_add`

*Limits.* pointer-level model

### C58 Node attributes are independent
the attributes of a node change only by operations that add or remove that node, and never by operations on edges, in histories in which nodes are added one at a time without a caller's dictionary. Otherwise not: all nodes added by one add_nodes_from call, and all nodes added with the same attr_dict object, share one attribute dictionary, so changing one changes the others.

*Proof.* Heap addresses are disjoint along every history.

*Theorems* (proved). `Props.Graph`: `add_node_independent`, `attributes_independent`, `add_nodes_from_shares`, `add_node_dict_shares`

*Limits.* proved for histories without add_nodes_from of several nodes and without shared attr_dict; false otherwise (add_nodes_from_shares, add_node_dict_shares)

### C59 Corpus equality is by content
two corpora are equal exactly when they have the same relations, metadata with the same content, and graph pairs that agree one by one in bank files, graph ids, metadata and alignments; comparing a corpus without metadata with one with metadata raises AttributeError.

*Proof.* Equality of heaps' contents.

*Theorems* (proved). `Props.Corpus`: `corpus_eq_iff`, `corpus_eq_meta_raises`

### C60 Text alignment adds exactly the similar pairs within aligned scopes
aligning a corpus removes the links that mention the focus tags (when clearing is asked for), keeps all others, and adds exactly one link for each pair of focus elements below linked scope elements that is not linked yet and whose similarity the filter accepts; without scope tags the roots count as linked, and other links of the roots are lost. Elements in an ignored subtree should remain unaligned, but those without children are aligned.

*Proof.* Recursion over scopes and tags; membership of links characterised by similarity and scope.

*Theorems* (proved). `Props.TextAlign`: `align_sound`, `align_corpus`, `align_corpus_default`, `ignored_aligned`

*Limits.* exact for filters by score and focus tags that are no scope tags, links by number; sound for every filter; the claim about ignored subtrees is false of the code (ignored_aligned)

### C61 Loading a GraphML file yields what the file says
for every file of key declarations and graphs in which every key is declared, every graph has tokens, every node a label and tokens, and the ends of edges are nodes, loading yields exactly its graphs, in order, with exactly its nodes, edges, token lists and attribute values, whatever text stands between elements and however the text is cut into pieces; default values given with keys have no effect. Any other file with distinct ids does not load: it raises DaesoError for an undeclared key or something missing, ValueError for an edge without an end, KeyError for a key for an unknown kind of component. Data of a graph must come first: after a node they raise TypeError, after an edge they end up with the edge.

*Proof.* Induction over the document; final graph compared with a reading of the file.

*Theorems* (proved). `Props.GraphmlFile`: `file_means`, `loads_iff`, `fault_raised`, `late_after_node`, `late_after_edge`, `defaults_ignored`

*Limits.* Event handlers modelled over element trees; expat is not.

### C62 Threads can share a cache
all methods of a cache except membership tests and the enumeration of keys are synchronized: whatever the interleaving of the calls of any number of threads, the completed calls have the results they have when made one after the other in some order that respects the order of calls within threads and of calls that do not overlap; no schedule leads to a deadlock; and calls of a memoised function through a shared cache always return the value of the function. A membership test can see the cache in the middle of another thread's call.

*Proof.* Interleavings as a small-step relation with a re-entrant lock; commutation of steps of other threads, hence equivalence to a serial history.

*Theorems* (proved). `Props.CacheThreads`: `synchronized_serialises`, `synchronized_finished`, `synchronized_progress`, `cache_serialisable`, `memo_threads`, `contains_not_serialisable`

*Limits.* Interleaving at the level of Python statements that touch the cache; __contains__ is in the model of calls, keys is not. The memoised function itself is a value, computed in one step with the lock held.

### C63 Evaluation of a text alignment counts distinct aligned pairs
for each pair of a true and a predicted corpus the evaluation prints the numbers of different pairs of ids that are aligned with both ends carrying the tag: in the true corpus, in the predicted corpus and in both, however often and in whatever order the links occur; precision, recall and F score are the shares these numbers imply, between 0 and 1, all 1 exactly for equal non-empty alignments and 0 exactly for disjoint ones; the last row has the sums; rows pair files with labels, by default the file name of the predicted corpus. Links by number have no ids, so that all of them count as one.

*Proof.* Counts as cardinalities of sets of pairs.

*Theorems* (proved). `Props.PtcEval`: `count_exact`, `count_set`, `linked_finite`, `eval_labelled`, `eval_unlabelled`, `eval_length`, `scores_range`, `scores_exchange`, `by_number`, `by_number_full_marks`

*Limits.* exact numbers; for alignments by number the property is violated (by_number, by_number_full_marks)

### C64 The printed differences of text alignments are the differences
comparing two text alignments of the same documents w.r.t. a tag prints exactly the alignments of elements with this tag that one of them lacks, once each under the right heading with the ids and texts of both elements, numbered from 1; nothing is printed for a corpus and itself; exchanging the corpora exchanges the headings; an unknown tag raises KeyError. Targets without ids count as the same, and elements beyond the shorter document are not compared.

*Proof.* Printed entries as symmetric difference.

*Theorems* (proved). `Props.PtcDiff`: `printed_exact`, `printed_difference`, `printed_nothing`, `printed_exchange`, `unknown_tag`, `without_ids`, `further_elements`

*Limits.* violated for targets without ids and beyond the shorter document (without_ids, further_elements)

### C65 Tables of statistics survive being written and read
writing a table of statistics and reading the file into a table with the same types of columns adds exactly its values: text and counts unchanged, other numbers rounded to two decimals (and exactly, if they have two decimals already), with or without the legenda. A file that was cut off at any point is either read completely or raises EOFError or ValueError; reading raises nothing else. The line of overall values has one word per overall value, and the legenda one line per column. This holds for tables with equally long columns of words that do not begin with four dashes and of numbers narrow enough to keep apart; outside these limits tables are misread silently.

*Proof.* Characters: writing, splitting into lines and words, parsing numbers; induction over rows and columns.

*Theorems* (proved). `Props.StatsTable`: `write_read`, `write_read_exact`, `truncated`, `read_errors`, `rows_written`, `overalls_written`, `legenda_written`, `init_created`, `init_columns`, `grow_rows`, `unreadable`

*Limits.* exact numbers instead of floats; float() without exponents, inf and nan; unreadable shows the limits

### C66 A Hitaext document says what was put into it
any sequence of calls on a new or read document (file names, pseudo roots, render elements and their attributes, init_elems, alignment method, links) has exactly its effect and no other: each side, the method and the links change only by the calls for them, and the getters return what was set; init_elems gives one element for each tag of the text in order of first occurrence, marks the tags that occur once, and makes the root the pseudo root; a document is valid, and can be read after it was written, exactly if both file names are there, and then says the same. With search a file at the path given or relative to the document is found; but otherwise the search returns the corpus itself, and a childless element given to the constructor is ignored.

*Proof.* The tree represents a record (two sides, method, links); an update at one path leaves all elements reached by other paths (induction over the tree); every method commutes with the representation.

*Theorems* (proved). `Props.HitaextFile`: `new_history`, `document_history`, `getters`, `init_elems_exact`, `init_twice`, `validate_iff`, `write_read`, `new_unreadable`, `element_ignored`, `search_finds`, `search_wrong`, `missing_part`

*Limits.* search_wrong: the search for a document ends with the corpus itself; the XML library's write and read is modelled as dropping empty texts

### C67 Reports over a corpus count every part once, however they came about
corpus_seg_stats keeps a report file for each part (annotation and subsegment), each annotation and the segment. After any number of runs, with any targets and whatever the corpus was at the time of each, the files of the annotations and of the segment have the values of the table found last for each part, in order, each once; a first run reports exactly the parts asked for; a run for the changed parts has the same outcome as a run for all; a run that finds nothing new changes nothing, and no run changes other files. Parts whose files were removed keep being counted. Reports cut off by a crash are never counted in part: the next run raises an exception or gives the totals of the complete files. Names differ if annotations have no points or slashes and subsegments no points; subsegments that differ only in '/' and '.' share a file and are counted wrongly.

*Proof.* Joining tables is associative and rounding idempotent; the files after a run are determined by an invariant over both loops (which files are already written), the tables by reading back what was written (C65); histories by induction.

*Theorems* (proved). `Props.StatsCorpus`: `run_renews`, `first_run`, `history`, `incremental`, `unchanged`, `cut_off`, `no_subs`, `distinct_names`, `file_names`, `job_sound`, `shared_name`

*Limits.* the tables of pgc_stats, the empty tables and summarize are parameters; files in one directory, writing succeeds; shared_name shows the limit

### C68 Moving a Hitaext document to other directories
ptc_chdir changes in each document the two file names and nothing else: each becomes the file name (what follows the last slash or backslash, without a drive) in the new directory, also for Windows paths; links, render elements and pseudo roots stay. Running it again changes nothing more (unless the directory is empty and the file name looks like a drive); a dry run changes no file; documents not given are not touched. An exception stops the run: the documents before it have been changed, those after it have not. A path that ends in a slash has no file name; without a new directory the document can then not be read any more.

*Proof.* Paths split at the last slash or backslash; the document changes by C66; induction over the list of files.

*Theorems* (proved). `Props.PtcChdir`: `new_path`, `new_path_total`, `again`, `document_moved`, `file_moved`, `dry_run`, `files_moved`, `ruined`, `not_again`

*Limits.* a file is what is parsed from it; ruined and not_again show the limits

### C69 Corpora packed for another site can be read there
pgc_zip writes for each corpus matched the corpus and one entry for each graph bank that its graph pairs use, with their contents, under their base names in one directory named after the archive, and nothing else; it succeeds exactly if all corpora can be read and all these files exist. Unpacked anywhere, and read with relax_gb_paths, the corpus is what it was, with all its graphs, apart from the paths of its banks, provided that all its banks are used, that the recorded paths do not exist at the new place and that there are no renaming links; without graphs it can always be read; where the recorded paths exist relax_gb_paths changes nothing. Otherwise it fails: unused banks are not packed but are loaded, banks under links are packed under another name, files with one base name overwrite each other, and files that happen to be at a recorded path are read instead.

*Proof.* Reading in two environments in which the banks have equal contents is a simulation (states equal apart from bank paths), event by event; packing is a loop that appends; paths by the laws of join, basename and dirname.

*Theorems* (proved). `Props.PgcZip`: `archive_exact`, `archive_content`, `packs_iff`, `archive_directory`, `nothing_matched`, `name_clash`, `unpacked_reads`, `unpacked_reads_none`, `relaxed_same`, `unused_bank_missing`, `linked_bank_missing`, `other_file_read`

*Limits.* file systems, the XML reader and the graph bank reader are parameters; an archive is the list of its entries; the limits are theorems too

### C70 Paths of graph banks in a corpus file lead back to the graph banks
a corpus written to any file, from any working directory, and read from any other by any path that leads to the same directory, through symbolic links or not, has the same graph bank paths, whether they were written relative or absolute. If corpus and banks are moved together, to another directory or file system, relative paths lead to the banks at their new place; absolute paths lead to the same place wherever the corpus is. realpath gives the path of a place without links, and stays there. Limits: names must not begin or end with white space, and a corpus file that itself is a link is not read relative to the file it leads to.

*Proof.* Paths as lists of names; walking a relative path from the directory returns to the place (common prefix, then '..'), links are resolved by recursion on their depth.

*Theorems* (proved). `Props.RelPath`: `realpath_place`, `bank_found`, `bank_moved`, `absolute_stays`, `text_kept`, `files_lead_back`, `linked_corpus`, `blank_lost`, `unresolved_directory`

*Limits.* os.path.realpath and relpath are modelled; links that lead nowhere give no path

### C71 Copying corpora
pgc_cp copies each source that holds a parallel graph corpus to the target file, or under its base name into the target directory, and the copy, read from its new place, is the same corpus (relations, metadata with elements, graph ids, alignments, and banks for the same files with the same formats, although the paths in the file are now relative to another directory). Without --overwrite no file that exists is changed, whatever happens; only targets are changed, and a source is never changed by copying it; running it again changes nothing. Sources that do not exist or cannot be read are skipped with a warning and do not keep others from being copied; several sources need a directory; of two sources with one base name the first one is kept, or with --overwrite the last. Limits: a corpus that can be read but not written (an attribute missing, the file of a bank missing) stops the run, in the former case leaving a torn target.

*Proof.* Induction over the list of sources; an invariant of reading (every corpus that was read has non-empty ids, declared banks, one-to-one alignments) makes writing and reading back (C38) applicable, with paths by C70.

*Theorems* (proved). `Props.PgcCp`: `nothing_overwritten`, `only_targets`, `source_safe`, `target_in_directory`, `needs_directory`, `bad_skipped`, `all_copied`, `same_name`, `again`, `copy_reads`, `copies_read`, `torn_target`, `missing_banks`

*Limits.* the paths and the XML library (its write and read drop empty texts) are parameters; reading without graphs; torn_target and missing_banks show the limits

### C72 Links by number rewritten as links by id
rewriting a Hitaext document from alignment by number to alignment by id turns each link into the link by ids of the same two elements, as often as it was there, in document order of the source elements, and sets the method; if all aligned elements have ids of their own then the document says the same alignment as before (every source element has the same targets in the same order, every target the same sources), it can be written, and rewriting again changes nothing. Links by id can always be rewritten as links by number for the same elements. Limits: an aligned element without an id gives a link that cannot be written, of two elements with one id the last gets the alignments; and the script ptc_n_to_id itself always fails, because it opens the list of its arguments.

*Proof.* The loops of C51 with one kind of link going in and the other coming out; grouping links by source element keeps the order for each source.

*Theorems* (proved). `Props.PtcConvert`: `to_ids`, `writable_iff`, `ids_designate`, `same_alignment`, `again`, `to_numbers`, `one_file`, `script_fails`, `not_identified`

*Limits.* violated for the script as it is (script_fails); not_identified shows the limits; elements are distinct objects

### C73 Aligned phrases as a table
pgc_extract_phrases prints, file by file and graph pair by graph pair, one line for every alignment, each exactly once: source phrase, relation and target phrase (the tokens of the nodes separated by single spaces), with --verbose after the two bank paths, graph ids and node ids. The printed text determines the table if no column has a newline or the first character of the delimiter (with a delimiter of one character, by cutting at newlines and at the delimiter); otherwise different tables can print alike. An alignment of a node without tokens (with --verbose also a graph or bank without id or path) stops the run with a TypeError, after all lines before it; a file that cannot be read stops it after the lines of the files before it; with a delimiter that is not ASCII no line is ever printed.

*Proof.* Induction over files, graph pairs and alignments, with the alignments enumerated as in C31; cutting at a character that does not occur.

*Theorems* (proved). `Props.Phrases`: `extracted`, `complete`, `table_injective`, `read_back`, `delimiter_in_phrase`, `unreadable`, `not_ascii`

*Limits.* reading the corpora is a parameter; delimiter_in_phrase, unreadable and not_ascii show the limits

### C74 From text corpora and graph banks to corpus files
pgc_from_ptc does nothing if there are not as many source and target graph banks as text corpora; otherwise it makes a corpus of the i-th text corpus and the i-th banks for every i and writes it in the working directory under the base name of the text corpus with the extension .pgc; no other file is changed, whatever happens. The corpus read again, from any working directory and by any path, has exactly one graph pair, without alignments, for each link between focus elements that are admissible by length and difference, in order, with the graph ids of the link and banks for the files given, and the relations given in alphabetical order. The first text corpus that fails stops the run, those before it stay written. Of text corpora with one base name the last one wins, and a text corpus in the working directory with the extension .pgc is overwritten by its own result.

*Proof.* Induction over the triples; the corpus itself by C46 (creation), C38 (pretty printed and read) and C70 (paths).

*Theorems* (proved). `Props.FromPtc`: `numbers`, `in_order`, `only_outputs`, `all_made`, `stops`, `name_of`, `own_input`, `new_read`, `from_text_corpus`

*Limits.* what is in a text corpus or graph bank file is a parameter; the XML library as in C71; graphs with ids, banks that exist, names without white space at their ends

### C75 Printed score matrices and alignments can be read
print_alignment writes a grid in which every row and column stands under its number and the text of its element, all columns are wider than their texts, and a field has x exactly where the two elements are aligned; two alignments are printed alike if and only if they align the same elements of the sequences. print_scores writes the whole part of every score (decimals are cut off) and the letter of its step: two matrices are printed alike if and only if these are the same, even if fields run together, and scores of at most five characters make a grid. A sequence without elements raises ValueError before anything is written, a matrix with a missing cell raises KeyError; the results of needleman_wunsch and smith_waterman for sequences with elements, and all results of waterman_eggert, are printed without exceptions.

*Proof.* Fixed-width fields by length arithmetic; a cell ends at the first colon and one letter, so rows of cells are read from the left by induction.

*Theorems* (proved). `Props.AlignPrint`: `alignment_grid`, `alignment_determined`, `scores_grid`, `scores_determined`, `empty_fails`, `scores_missing`, `nw_printed`, `sw_printed`, `we_printed`

*Limits.* elements are represented by their texts; exact numbers instead of floats

### C76 Printed evaluations and agreement tables
After any history of added corpus pairs, run_eval and write of AlignEval print a table regardless of relations, a table for each relation in their order under its name in capitals, and a summary over the relations. Each table has a row for each corpus pair, in the order of adding, with the name and the exact numbers of true, predicted and common alignments, and a row with precision, recall and F score in percent rounded to two decimals, and the statistics of both; splitting a row at white space gives the name and the values. Agreement of annotators is printed as the evaluation of all ordered pairs of different annotators, and as a square table for each relation and measure, with the annotators in alphabetical order, nothing on the diagonal, and means and standard deviations below. Without names nothing is printed but a title (ValueError), and a table without some score is not printed to the end (KeyError).

*Proof.* The model writes text (Model/EvalPrint); the specification (Spec/EvalPrint) describes documents as lines of cells with fields, where a number is given with the nearest decimals. Documents compose with the output (Lemmas/EvalPrint), and the theorems of C41, C43 and C45 supply the contents. Splitting a row at white space is shown to give back name and values.

*Theorems* (proved). `Props.EvalPrint`: `no_names`, `table_printed`, `evaluation_printed`, `counts_readable`, `percents_readable`, `decimals_close`, `matrix_printed`, `matrix_missing`, `agreement_printed`

*Limits.* The square root of a variance and repr of a string are parameters; printing before run_eval or after a further add is not modelled.

### C77 Printed differences between corpora
pgc_diff writes, for every graph pair in turn, its two sentences, on request the comments of both annotators (nothing if there are none or they are blank), and a section under its title for each kind of difference that occurs, with every pair of nodes that belongs there exactly once: its number (1, 2, 3, ... through the whole report), the source node, the two relations in capitals (NONE if there is none) and the target node. If all alignments are the same, and neither identical alignments nor comments are asked for, only the sentences are written. Limits: the heads that name the corpora, the annotators and the graph pairs are made but never written, so that the output does not depend on the corpus names; the report is complete if and only if the relations and the labels of source nodes that it shows are ASCII, and otherwise breaks off with a UnicodeError, although labels of target nodes, words and comments can be any text; an empty comment element breaks it off with an AttributeError.

*Proof.* The model writes text and keeps what was written before an exception (Model/DiffPrint, on the report of Model/PgcDiff). If the report of C44 succeeds, the output is related to it section by section (Lemmas/DiffPrint: section_print, pair_print, by induction over entries and graph pairs), so that C44 says what is in it; `Ends` says exactly when the output is complete, and composes with the order of writing.

*Theorems* (proved). `Props.DiffPrint`: `report_printed`, `diff_printed`, `same_printed`, `unicode_labels`, `names_not_printed`, `empty_comment`, `refused`, `missing_values`

*Limits.* violated in part: the heads with corpus names and graph pair numbers are never written, a source label or relation that is not ASCII ends the report with a UnicodeError (a target label does not), and an empty comment element ends it with an AttributeError

### C78 Pairs of source and target
A Pair compares with == by what it holds, through nested pairs, wherever it is in memory (byte strings and unicode strings by their characters): on nestings within the recursion limit this is an equivalence, and deeper nestings of the same content, as well as pairs that hold themselves, raise RuntimeError. x in list, index, count, remove and == of lists go by content too, so that remove can take away another object. A new pair and set() change nothing that does not hold the pair; Pair(*pair) is a copy with the same content that later changes of the original leave alone. repr depends on the content only and determines it exactly, for all strings, numbers and nestings. Limits: == with something else gives None; != goes by identity, so that two pairs can be both equal and unequal; sets and dicts go by identity, so that sets of pairs made by two calls have nothing in common; str is ambiguous and fails exactly if some unicode string in it is not ASCII.

*Proof.* Addresses in a heap (Model/Pair); contents are finite trees given by an inductive relation (Spec/Pair), and the comparisons are proved by induction over it. repr is decoded from the left: kinds differ in the first character, escapes are prefix-free, and numbers end at a character that no number has.

*Theorems* (proved). `Props.Pair`: `equal_iff`, `equivalence`, `equal_other`, `too_deep`, `cyclic`, `unequal_identity`, `in_list`, `first_same`, `count_same`, `lists_equal`, `in_set`, `set_of`, `sets_apart`, `new_pair`, `set_frame`, `set_content`, `unpacked`, `copied`, `repr_exact`, `repr_quotes`, `repr_too_deep`, `str_succeeds`, `str_ambiguous`

*Limits.* violated for !=, sets and str (unequal_identity, sets_apart, str_ambiguous); pairs hold None, integers, strings and pairs; the recursion limit is counted in nested pairs

### C79 Assignment with floating-point costs
For a rectangular matrix of floats, Munkres.compute returns a complete one-to-one assignment after a number of steps bounded by the size of the matrix alone (about 2n^2+6n), whatever rounding errors the sums and differences have, if no two costs (and 0) differ by more than sys.maxint; this holds for every rounding that keeps order and zero and leaves rounded numbers alone, so for floats of at most 2^61. Its cost is minimal if the costs are whole numbers of at most 2^51. Limits: with larger floats the cost need not be minimal, and with a float far above sys.maxint compute never returns.

*Proof.* The steps of C20 with a rounding function (Model/MunkresFloat). Zeros stay exact zeros: the smallest uncovered cost is a cost of the matrix, so that its difference with itself is fl 0. Lines without a star are never covered and their costs only decrease, which bounds the smallest cost; the measure counts stars, and within a phase the uncovered rows. For whole costs the amount subtracted so far is bounded by the largest difference of costs, so that all sums stay below twice it, where the rounding is exact.

*Theorems* (proved). `Props.MunkresFloat`: `complete`, `complete_double`, `optimal`, `optimal_double`, `exact_steps`, `forever`, `forever_double`, `not_optimal_double`

*Limits.* violated without the limits: with a float far above sys.maxint compute never returns (forever_double), and with large floats the assignment need not be minimal (not_optimal_double); overflow to inf and underflow are not modelled

### C80 Alignment of sequences with floating-point scores
However the sums of scores are rounded, needleman_wunsch ends without exception and returns an alignment; smith_waterman returns a local alignment or raises IndexError; waterman_eggert with a limit ends, and its alignments are valid and consecutive ones share no pair. If scores have size at most K and sums are rounded with an error of at most e, then for sequences with N elements in all, needleman_wunsch (gap costs constant on each sequence) misses the best score by at most 3Ne, smith_waterman and the first alignment of waterman_eggert (gap costs not positive) miss it by at most 2Ne, and IndexError or no alignment means that no score is above Ne; for floats e is K*N/2^52. For integer scores with K*N at most 2^53 the results are those of exact arithmetic. Limit: with floats the best alignment need not be found.

*Proof.* The recurrences of C14-C17 with a rounding function (Model/AlignFloat). Validity needs no fact about rounding: the traceback follows the letters, which always point to an earlier cell. The rounded recurrence stays within e*(i+j) of the exact one (induction on i+j; maximum is non-expansive), and the score of the traced alignment within e (2e at the borders of Needleman-Wunsch) for every step; the exact bounds of C14 and C16 do the rest. For integers a relational Hoare argument shows that both programs make the same steps, since every entry (i,j) is an integer of size at most K*(i+j). The error of a float sum is at most its size/2^53, proved from the definition of rounding to nearest.

*Theorems* (proved). `Props.AlignFloat`: `nw_valid`, `sw_valid`, `we_limit`, `we_valid`, `nw_near`, `sw_near`, `we_near`, `nw_double`, `sw_double`, `integers`, `integers_double`, `not_best_double`

*Limits.* the best alignment need not be found with floats (not_best_double shows it); overflow to inf, nan and underflow are not modelled

### C81 Similarity measures computed with floats
However floats are rounded (keeping order and integers up to some M, at least the sizes involved), dice, tanimoto, jaccard, the overlap coefficients, generalized_dice, generalized_jaccard, sym_token_match, the normalized Levenshtein distance and ROUGE-N return the exact quotient rounded once, so that with floats the coefficients of two sequences are between 0 and 1, symmetric, 0 exactly for sequences without common elements, 1 exactly where the exact coefficient is 1, and rank pairs as the exact coefficients do, except for ties. cosine, generalized_cosine and the normalized lcs, which divide by a rounded square root, never raise, are between 0 and 1 and do not depend on the order of the sequences (products of lengths up to M, and not a single sequence for generalized_cosine); with floats the cosine is 0 exactly without common elements, the cosines are 1 exactly where the exact ones are, and the normalized lcs of sequences that are not empty is 1 exactly if they are equal. ROUGE-L, ROUGE-S and ROUGE-SU with beta 1 are between 0 and 1, symmetric and within the 2^50th part of the exact value; ROUGE-L raises ZeroDivisionError exactly for an empty sequence. Limit: an F-measure can be above both precision and recall.

*Proof.* The measures of C08-C13 with a rounding function for every operation on floats and a rounded square root, specified by comparison with all rational numbers (Spec/Root); math.sqrt is the real root rounded to 53 digits (Lemmas/RoundingReal proves that it is such a root). A quotient of two integers that are kept is the exact one rounded once, and a quotient below 1 of integers up to 2^53 is below 1 - 2^-53 and stays below 1. For a root, c^2 + c <= p unless the sequences are the same, which leaves enough room. The F-measure: rounded sums and products bounded by monotonicity, errors by factors 1 +- 2^-53.

*Theorems* (proved). `Props.SimilarFloat`: `rounded_once`, `rounded_once_many`, `rounded_once_rouge`, `float_coefficients`, `ranking`, `levenshtein_double`, `sqrt_rounded`, `cosine_range`, `cosine_double`, `gen_cosine_range`, `gen_cosine_double`, `lcs_range`, `lcs_double`, `rouge_l_float`, `rouge_l_error`, `rouge_l_near`, `rouge_s_float`, `rouge_s_near`, `rouge_su_float`, `doubles`, `f_measure_above`

*Limits.* overflow to inf and underflow are not modelled; the float is a rational rounded to 53 binary digits without limits to the exponent

### C82 Evaluation scores computed with floats
However floats are rounded (keeping order, doubling and integers up to the numbers of alignments), evaluating a table with at least one comparison never raises (no square root of a negative number, however the squared differences are rounded): precision and recall of each row and over all rows are the exact ones rounded once, all scores and their means are between 0 and 1, no variance is negative, each deviation is the root of its variance. If all predictions are right, all scores and means are exactly 1 and the deviations of scores exactly 0; a table without comparisons raises ZeroDivisionError. With floats each F is within the 2^50th part of the exact F and a mean of n scores within factors (1 - 2^-53)^(n+1) and (1 + 2^-53)^(n+1) of the exact mean of these scores, and each variance of n values within factors (1 - 2^-53)^(n+4) and (1 + 2^-53)^(n+4) of the exact variance of these values about the computed mean. The same, with similar exponents, for the tables of agreement of two or more annotators and for the scores of parallel text corpora. The weighted cosine never raises, is symmetric, exactly 1 for weights with themselves, and at most (1 + 2^-53)^(n+2) / (1 - 2^-53)^(n+3) for at most n weights that are not negative. Limits: the mean of equal scores can differ from them, and the weighted cosine can be more than 1.

*Proof.* The evaluations of C42, C45, C56 and C61 with rounded arithmetic (Model/EvalFloat). Squares and their rounded sums are not negative by monotonicity, so sqrt does not raise; a rounded sum of n numbers of at most 1 is at most n as n is kept; sums of ones are exact. Errors by factors 1 +- 2^-53 per operation (a squared difference has three). Root of a rounded square: scaled to an integer N of 53 digits, |double(N^2) - N^2| is at most 2^51 or 2^52, less than 3/4 N, so the root is less than 3/8 from N. The bound of the cosine by Cauchy-Schwarz.

*Theorems* (proved). `Props.EvalFloat`: `table_scores`, `empty_table`, `perfect`, `table_near`, `variance_near`, `agreement_table`, `agreement_near`, `full_agreement`, `mean_above`, `text_scores`, `text_scores_near`, `weighted_cosine`, `weighted_cosine_self`, `weighted_cosine_bound`, `weighted_cosine_above`

*Limits.* overflow to inf and underflow are not modelled

### C83 Command lines of the tools
If the parser of a tool accepts a command line, then every string of it is accounted for: the line falls into parts, each of which is an option (by its name, a start of a long name, with a value after = or joined to a short name, or several short options joined) with as many values as it takes, or the strings of a positional argument, in order and as many as it takes; every attribute of the namespace is what these parts say (the last value, all appended values, the constant, or the default), and all attributes are set. Conversely, a line of options, files and options is accepted with these meanings, if the last option before the files takes a fixed number of values; after -- all strings are files, whatever they look like. Files that do not stand together are unrecognized; files directly after an option with any number of values are values of that option, and then files are missing; -h and -v end the parse with help and version, whatever is missing; a string that looks like an option and names none, or that starts several long names, is never accepted; and no command line makes the parser fail without a message. All this holds for the parsers of all tools in bin, which set every attribute that the tools read; pgc_agreement calls run_eval with exactly its keywords, pgc_chdir always has two prefixes. Limits: the threshold of pgc_stats can never be set to a number (its type is the string int), and ptc_n_to_id gets a list as a file name.

*Proof.* The regular expressions over the letters A, O and - are pieces that can match certain numbers of letters, tried in order (Model/Argparse). Soundness: the loop over the strings, by induction on its bound, gives the parts (Lemmas/ArgSound); attributes by an invariant of the actions taken so far (Lemmas/ArgValue). Completeness: each way to write an option is read as meant (Lemmas/ArgRun), and a block of files is divided in the only possible way, as at most one positional argument varies in length (Lemmas/ArgPattern, ArgLoop). Strings that are not known and the ways to stop: invariants of the loop (Lemmas/ArgMore). The parsers of the tools satisfy the conditions by evaluation of a test that is proved sound.

*Theorems* (proved). `Props.CommandLine`: `conserved`, `complete`, `complete_dashes`, `split_files`, `missing`, `help_version`, `unknown`, `ambiguous`, `clean`, `tools_wf`, `attributes_set`, `agreement_keywords`, `file_list`, `prefix_pair`, `threshold_never`, `threshold_works`

*Limits.* mutually exclusive groups, sub-commands, choices and arguments from files are not modelled; the tools do not use the last four; violated for the threshold of pgc_stats (threshold_never) and the file of ptc_n_to_id (file_list)

### C84 Splitting a corpus file and joining the parts
If a corpus file can be read and what was read can be written (banks exist or there is one, each with one format, node pairs with both nodes and a relation; the graphs wanted are in the graph bank files), and the names of the parts lead to different places that can be written, pgc_split ends without an exception: each part is a file, named after the first and the last of its graph pairs, that is read (with its graphs) as just these graph pairs (banks of the same files, graph ids, alignments, metadata, the latter but for white space if the XML is indented), with the relations and metadata of the corpus; no other file is changed. A missing file, a file that is not a corpus, or zero parts raise (OSError, the exception of reading, ZeroDivisionError) and change no file. pgc_join on the parts of a corpus of 1 to 9999 graph pairs, in whatever order the files are found, writes a corpus that is read (from a file in the working directory) as the same graph pairs in the same order, relations and metadata. With 15000 graph pairs in parts of 5000 the names do not sort by number and the order is wrong: 0001-5000, 10001-15000, 5001-10000. In general pgc_join gives the graph pairs of all files in the order of the sorted names, with the metadata of the first; without files it raises IndexError, at the first file with other relations ValueError. If pgc_split or pgc_join ends without an exception, no attribute it had to write was None: every part, and the joined file, is complete.

*Proof.* Reading with sparse loading keeps the invariant of corpora that were read (Lemmas/SplitJoin readInv_sparse). A world made by slicing or purging has the files, ids, metadata and alignments of the corpus (Made), so writing and reading it gives the graph pairs again by the round trip of C70 (reads_back), and what is read can be written again (Ready.of_same). Joining tags the ids of the banks of both corpora apart (tag is injective). Four-digit numbers compare like texts (digits_lt), so sorting the names gives the parts in order; splitext by its specification SplitExt.

*Theorems* (proved). `Props.SplitJoin`: `split_files`, `split_join`, `wrong_order`, `split_refused`, `split_complete`, `join_reads`, `join_refused`, `join_complete`

*Limits.* names are compared as sequences of characters; messages, a full disk and glob itself (any list of files) are not modelled; violated beyond 9999 graph pairs (wrong_order)

### C85 Usage and help of the tools; declaring arguments
Calls of add_argument are accepted, and give the arguments in the order of the calls, if and only if each of them is a well-formed declaration (an option with names that start with a dash and have another character, an attribute given or made from the first long name; or one positional name, required unless it can do without values; the keywords of the action) and no name is used twice. The parsers that the tools build in this way are those of C83. For plain names and metavars the usage never fails, in a terminal of any width: it has all options, then all positional arguments, with their values, in brackets if they can be left out, in parts that are not broken, and a line longer than the terminal has one part only. The help has (apart from empty lines) the usage, the description, a section of the positional arguments and one of the options with an entry for each in order, and the epilog; help texts start in one column, at most 24, and lose nothing but white space. All tools show their help in terminals of 27 columns or more; in terminals of less than 20 columns, -h ends in a ValueError. A blank help text is an IndexError, a metavar in parentheses loses them, and one with a bracket is an AssertionError if the usage does not fit a line.

*Proof.* Every call of add_argument by cases of its action (Lemmas/ArgDeclare). The text of plain arguments has no double spaces and no empty brackets, so that the substitutions leave it as it is, and the regular expression that takes it apart again finds the units (Lemmas/ArgUsage, induction over the units); the lines by induction over the parts. The help by its lines that are not empty: what joins and strips the sections only removes empty lines (Lemmas/ArgHelpText), and each block is computed (Lemmas/ArgHelpLines). The tools by evaluation of their declarations.

*Theorems* (proved). `Props.UsageHelp`: `declared`, `usage_complete`, `help_shows`, `help_narrow`, `column_unique`, `tools_declared`, `tools_usage`, `tools_help`

*Limits.* textwrap.wrap is a parameter (it breaks a text in lines of the width and loses nothing but white space); help texts with % are not covered (the tools have none); groups of one's own, suppressed arguments, choices, and tuples as metavars are not modelled; violated in narrow terminals (help_narrow), and for blank help texts and metavars with brackets (examples)

### C86 Why command lines are refused, and what is said
A command line that gives no namespace asks for the help or the version, or is refused for a reason that is true: an ambiguous string starts two option names or more, which are listed all and in order, and it is the first such string before a `--` (if and only if: no other mistake is reported instead); an option that is said to lack values has not as many strings after it as it needs before the next that is no value, or needs two or more and has one joined to it; an ignored value was given with `=` to an option without values, or follows a letter for one that no option follows; an invalid number was given to an option of that type and is no numeral; too few arguments: the line falls into options with their values, positional arguments and strings left over, and some positional arguments got none - with the tools, strings are left over then only if they look like unknown options or are `--`; unrecognized arguments are exactly the strings that are left over when all positional arguments have theirs. What is written is the complete usage and one line with the name of the program, `error`, the argument by all its names, and these words; the status is 2; and 0 for the help and the version. No command line ends in an exception, except -h in a terminal that is too narrow. (As it is, the characters said to be ignored lack the first one.)

*Proof.* The loop over the strings keeps an invariant by induction on its bound: every string that was passed belongs to a part or is left over, and every error of a step has its reason in the command line (Lemmas/ArgWhyLine loop_why, loop_left; steps in Lemmas/ArgWhy). Ambiguous strings stop the classification before anything else is done, so this is an equivalence. That a string left over is no loss: the longest match of the positional patterns takes a string if the first missing argument needs one (matchPartial_max, none_left). Messages by cases (Lemmas/ArgSays); usage and help by C85.

*Theorems* (proved). `Props.CommandErrors`: `refused`, `ambiguous_iff`, `ambiguous_unique`, `ends`, `tools_plain`, `tools_end`, `tools_few`

*Limits.* textwrap.wrap and repr are parameters; violated in part: the text called ignored after a letter that is no option lacks that letter, or is None (examples), -h fails in narrow terminals

### C87 Functions memoised with the default marshaller
The key that the default marshaller makes of a call tells it exactly: two calls have the same key if and only if they have the same function name, the same positional arguments and the same keyword arguments in the same order (arguments built of None, booleans, integers, both kinds of strings, tuples, lists and dictionaries, nested in any way; 1 and True, 'a' and u'a', (1,) and [1] are told apart). If functions that share a cache have different names, memoisation is transparent: in every sequence of calls, removals, clearings, collections and changes of the limits, with all size and age limits, each call gives the result of the function, or raises what it raises. Without limits a function is run for a call if and only if no earlier call with the same name and arguments had a result: exceptions are not kept; with an age limit it is run again just if the last run of such a call raised or its result, whose age counts from the end of that call, is too old. Keywords named func, self, key or generator are a TypeError. Functions of the same name that share a cache get each other's results; if the cache has default_fail, no function is ever run and each call is a KeyError.

*Proof.* repr of a value is a prefix code: a mutual induction on values (lists, items) shows that texts repr x ++ r and repr y ++ s are equal only if x = y and r = s (Lemmas/CacheKey repr_inj), so that keys tell calls. Sequences by induction with the simulation of the cache by a list in order of use (CRep); the invariant is that each entry is what the function gives for its key (transparent), respectively that just the keys of calls with results are present (once).

*Theorems* (proved). `Props.CacheKey`: `key_exact`, `transparent`, `same_name`, `once`, `expiry`, `default_fail`

*Limits.* Functions are deterministic, do not use the cache themselves; floats and objects as arguments are not modelled (two objects may have the same repr). Findings: functions of the same name in different modules that share a cache get each other's results; keywords func, self, key and generator are TypeErrors; with default_fail, memoised functions always raise KeyError

### C88 Printing a matrix
print_matrix raises if and only if the matrix (of integers) has an entry that is zero or negative, however logarithms are rounded; it raises ValueError then, and has written only the message. For other matrices it writes the message on a line of its own and one line for each row, with all numbers at the right of fields of one width, separated by commas, in brackets, provided that no logarithm is rounded below the number of digits; the width is what one of the logarithms says (with exact logarithms: the number of digits of the largest entry), and rows with the same number of entries give lines of the same length. An empty row gives a line with a closing bracket only. The printed text tells the matrix: different matrices never look the same, however logarithms are rounded.

*Proof.* The width is a maximum, by induction on the entries; fields by lengths of digits. That the print tells the matrix: without blanks it does not depend on the width, and numbers end at the first comma or bracket (Lemmas/MatrixPrint dense_line, short_inj).

*Theorems* (proved). `Props.MatrixPrint`: `raises`, `shows`, `told`

*Limits.* matrices of integers; the logarithm is a parameter. Findings: a matrix with a zero or a negative entry cannot be printed (ValueError after the message), an empty row lacks its opening bracket

### C89 Making directories
makedirs never changes or loses anything on the disk: it adds directories where nothing was, whatever the path, the links and the permissions are. If the path leads to something already, also to a file, it does nothing and raises nothing. If the path begins with names that lead to a directory (through links, dots and repeated slashes) and goes on with names that are not there, then directories are made for these in order, up to the first that may not be made, and nothing else; if all may be made, the path leads to a directory afterwards. Failures are not noticed by the caller: below a file, without permission, or after a link that leads nowhere, nothing is made and nothing is raised. Only if more directories are missing than calls may be nested, there is an exception (RuntimeError), and none is made.

*Proof.* Splitting a path takes off its last name, whatever slashes it has (Lemmas/MakeDirs headTail_of); resolution is a fold over names, kept when directories are added (go_grown, by induction on the depth of links). The recursion by induction on the missing names from their end (makes, blocked, too_deep).

*Theorems* (proved). `Props.MakeDirs`: `resolves`, `grown`, `present`, `made`, `success`, `unnoticed`, `deep`

*Limits.* os.makedirs, os.mkdir and os.path.exists of Python 2.7 and POSIX are modelled, without limits on names and without other processes. Finding: the docstring promises that no exception is raised if the directory exists, but every OSError is swallowed (the handler has no raise): without permission, or below a file, makedirs returns and there is no directory

### C90 Files for patterns
glob gives exactly the files of the working directory that the pattern selects, each once and in the order of characters: those of the form of the pattern (* stands for any characters, ? for one, every other character for itself), hidden files only if the pattern starts with a dot; a pattern without * and ? gives the file of that name if it exists. multiglob gives the files in that order, each as often as one of the patterns selects it: a file selected by two patterns is there twice (and is joined or packed twice), and patterns or names that select nothing are passed over in silence. The order of the patterns, and the order in which the system lists the directory, never matter.

*Proof.* The form of a pattern is an inductive relation; the test is shown exact by induction on the pattern, with an inner induction for * over the characters it stands for. Counts over the concatenation by induction on the patterns; two sorted permutations are equal.

*Theorems* (proved). `Props.FileGlob`: `form`, `found`, `times`, `order`

*Limits.* glob.glob and fnmatch of Python 2.7 are modelled for patterns without / and without classes [...] . Finding: a misspelt file name is passed over in silence, and a file that two patterns select is there twice

