HOW={
"C01":"Model/Levenshtein runs the two-row loop. Invariant: the row after i steps holds the distances of the first i elements to every prefix. Spec: inductive edit scripts with costs; lower bound by induction over scripts, upper bound by building one.",
"C02":"From C01 only: scripts of cost 0 keep the sequence, scripts can be reversed and composed.",
"C03":"From C01, with explicit scripts for the bounds; the quotient in ℚ.",
"C04":"Table as a dict with KeyError; invariant: each entry is the length of a longest common subsequence of the prefixes (Mathlib's Sublist); the trace back keeps 'what is collected plus what is left is optimal' and never leaves the table.",
"C05":"From C04.",
"C06":"Slices computed index by index; windows characterised by `drop`/`take`.",
"C07":"Induction over the recursion; positions characterised independently as pairs i < j ≤ i+k+1.",
"C08":"Finset cardinalities in ℚ, `sqrt` in ℝ.",
"C09":"Cardinalities; counterexample by evaluation.",
"C10":"Sums of products in ℚ/ℝ, Cauchy–Schwarz for the cosine.",
"C11":"Counts of n-grams as multisets.",
"C12":"From C04 and C07 and counting.",
"C13":"Invariant of the triangular loop: partial row sums; then minimum over the rows.",
"C14":"Table invariant over inductive alignments, score as sum over columns.",
"C15":"Trace back invariant: the columns collected so far align the suffixes and sum to the difference of the cells.",
"C16":"As C14 with floor 0 and maximum over all cells.",
"C17":"Invariants over the search loop with `limit`; violations by evaluation, divergence by showing that no fuel suffices.",
"C18":"Counting for tf and df; monotonicity of log.",
"C19":"Digit recursion against a compositional specification of Dutch numerals; injectivity by comparing word lists.",
"C20":"See section 6.",
"C21":"Refinement to a list of entries over all histories.",
"C22":"Refinement to counts; operators pointwise.",
"C23":"Invariant over all histories of the cache operations.",
"C24":"Refinement to a recency list.",
"C25":"Refinement gives termination; the diverging history is shown to exceed every fuel.",
"C26":"Invariant: every live entry holds the function's value.",
"C27":"Refinement to a set of nodes and edges; both adjacency views represent it.",
"C28":"Depth-first search invariant; termination by the number of unvisited nodes.",
"C29":"Induction over the history.",
"C30":"`split` of `join`.",
"C31":"Refinement to a finite relation.",
"C32":"Invariant: one-to-one.",
"C33":"Equality of adjacency dicts is equality of the relations they represent.",
"C34":"Unfolding and a counterexample.",
"C35":"List laws over a heap of graph pairs; every operation compared to the list operation.",
"C36":"Characterisation of `pop`; the others by the exception they raise.",
"C37":"Invariant of the purge loop: equal banks seen so far share one object.",
"C38":"Generator and parser composed; induction over the events of the written tree.",
"C39":"Parser state machine run over arbitrary documents.",
"C40":"Structural (mutual) induction over trees.",
"C41":"Counting loop equals cardinalities of finite sets of pairs.",
"C42":"Arithmetic in ℚ on the counts.",
"C43":"Sums over rows; variance by algebra.",
"C44":"The printed entries as a partition of the union of two relations.",
"C45":"Loop over ordered pairs of annotators; sums without the diagonal.",
"C46":"The filter loop against a predicate on pairs.",
"C47":"Reader state machine with the three loading modes.",
"C48":"Simulation of the sparse by the full parser, element by element.",
"C49":"Sums over graph pairs in ℚ.",
"C50":"Integer arithmetic of the split points; `flatten`.",
"C51":"Loop over the links with a frame condition (`SameBut`) for all other elements.",
"C52":"Mutual induction over trees; offsets into the text of the document.",
"C53":"Greedy loop invariant: kept links do not cross, every dropped link crosses a kept better one.",
"C54":"Filter laws.",
"C55":"Cauchy–Schwarz.",
"C56":"Prefix arithmetic on strings.",
"C57":"Doubly linked list over a heap represents a list; every pointer operation.",
"C58":"Heap addresses are disjoint along every history.",
"C59":"Equality of heaps' contents.",
"C60":"Recursion over scopes and tags; membership of links characterised by similarity and scope.",
"C61":"Induction over the document; final graph compared with a reading of the file.",
"C62":"Interleavings as a small-step relation with a re-entrant lock; commutation of steps of other threads, hence equivalence to a serial history.",
"C63":"Counts as cardinalities of sets of pairs.",
"C64":"Printed entries as symmetric difference.",
"C65":"Characters: writing, splitting into lines and words, parsing numbers; induction over rows and columns.",
"C66":"The tree represents a record (two sides, method, links); an update at one path leaves all elements reached by other paths (induction over the tree); every method commutes with the representation.",
"C67":"Joining tables is associative and rounding idempotent; the files after a run are determined by an invariant over both loops (which files are already written), the tables by reading back what was written (C65); histories by induction.",
"C68":"Paths split at the last slash or backslash; the document changes by C66; induction over the list of files.",
"C69":"Reading in two environments in which the banks have equal contents is a simulation (states equal apart from bank paths), event by event; packing is a loop that appends; paths by the laws of join, basename and dirname.",
"C70":"Paths as lists of names; walking a relative path from the directory returns to the place (common prefix, then '..'), links are resolved by recursion on their depth.",
"C71":"Induction over the list of sources; an invariant of reading (every corpus that was read has non-empty ids, declared banks, one-to-one alignments) makes writing and reading back (C38) applicable, with paths by C70.",
"C72":"The loops of C51 with one kind of link going in and the other coming out; grouping links by source element keeps the order for each source.",
"C73":"Induction over files, graph pairs and alignments, with the alignments enumerated as in C31; cutting at a character that does not occur.",
"C74":"Induction over the triples; the corpus itself by C46 (creation), C38 (pretty printed and read) and C70 (paths).",
"C75":"Fixed-width fields by length arithmetic; a cell ends at the first colon and one letter, so rows of cells are read from the left by induction.",
"C76": "The model writes text (Model/EvalPrint); the specification (Spec/EvalPrint) describes documents as lines of cells with fields, where a number is given with the nearest decimals. Documents compose with the output (Lemmas/EvalPrint), and the theorems of C41, C43 and C45 supply the contents. Splitting a row at white space is shown to give back name and values.",
"C77": "The model writes text and keeps what was written before an exception (Model/DiffPrint, on the report of Model/PgcDiff). If the report of C44 succeeds, the output is related to it section by section (Lemmas/DiffPrint: section_print, pair_print, by induction over entries and graph pairs), so that C44 says what is in it; `Ends` says exactly when the output is complete, and composes with the order of writing.",
"C78":"Addresses in a heap (Model/Pair); contents are finite trees given by an inductive relation (Spec/Pair), and the comparisons are proved by induction over it. repr is decoded from the left: kinds differ in the first character, escapes are prefix-free, and numbers end at a character that no number has.",
"C79":"The steps of C20 with a rounding function (Model/MunkresFloat). Zeros stay exact zeros: the smallest uncovered cost is a cost of the matrix, so that its difference with itself is fl 0. Lines without a star are never covered and their costs only decrease, which bounds the smallest cost; the measure counts stars, and within a phase the uncovered rows. For whole costs the amount subtracted so far is bounded by the largest difference of costs, so that all sums stay below twice it, where the rounding is exact.",
"C80":"The recurrences of C14-C17 with a rounding function (Model/AlignFloat). Validity needs no fact about rounding: the traceback follows the letters, which always point to an earlier cell. The rounded recurrence stays within e*(i+j) of the exact one (induction on i+j; maximum is non-expansive), and the score of the traced alignment within e (2e at the borders of Needleman-Wunsch) for every step; the exact bounds of C14 and C16 do the rest. For integers a relational Hoare argument shows that both programs make the same steps, since every entry (i,j) is an integer of size at most K*(i+j). The error of a float sum is at most its size/2^53, proved from the definition of rounding to nearest.",
"C81":"The measures of C08-C13 with a rounding function for every operation on floats and a rounded square root, specified by comparison with all rational numbers (Spec/Root); math.sqrt is the real root rounded to 53 digits (Lemmas/RoundingReal proves that it is such a root). A quotient of two integers that are kept is the exact one rounded once, and a quotient below 1 of integers up to 2^53 is below 1 - 2^-53 and stays below 1. For a root, c^2 + c <= p unless the sequences are the same, which leaves enough room. The F-measure: rounded sums and products bounded by monotonicity, errors by factors 1 +- 2^-53.",
"C82":"The evaluations of C42, C45, C56 and C61 with rounded arithmetic (Model/EvalFloat). Squares and their rounded sums are not negative by monotonicity, so sqrt does not raise; a rounded sum of n numbers of at most 1 is at most n as n is kept; sums of ones are exact. Errors by factors 1 +- 2^-53 per operation (a squared difference has three). Root of a rounded square: scaled to an integer N of 53 digits, |double(N^2) - N^2| is at most 2^51 or 2^52, less than 3/4 N, so the root is less than 3/8 from N. The bound of the cosine by Cauchy-Schwarz.",
"C83":"The regular expressions over the letters A, O and - are pieces that can match certain numbers of letters, tried in order (Model/Argparse). Soundness: the loop over the strings, by induction on its bound, gives the parts (Lemmas/ArgSound); attributes by an invariant of the actions taken so far (Lemmas/ArgValue). Completeness: each way to write an option is read as meant (Lemmas/ArgRun), and a block of files is divided in the only possible way, as at most one positional argument varies in length (Lemmas/ArgPattern, ArgLoop). Strings that are not known and the ways to stop: invariants of the loop (Lemmas/ArgMore). The parsers of the tools satisfy the conditions by evaluation of a test that is proved sound.",
"C84":"Reading with sparse loading keeps the invariant of corpora that were read (Lemmas/SplitJoin readInv_sparse). A world made by slicing or purging has the files, ids, metadata and alignments of the corpus (Made), so writing and reading it gives the graph pairs again by the round trip of C70 (reads_back), and what is read can be written again (Ready.of_same). Joining tags the ids of the banks of both corpora apart (tag is injective). Four-digit numbers compare like texts (digits_lt), so sorting the names gives the parts in order; splitext by its specification SplitExt.",
"C85":"Every call of add_argument by cases of its action (Lemmas/ArgDeclare). The text of plain arguments has no double spaces and no empty brackets, so that the substitutions leave it as it is, and the regular expression that takes it apart again finds the units (Lemmas/ArgUsage, induction over the units); the lines by induction over the parts. The help by its lines that are not empty: what joins and strips the sections only removes empty lines (Lemmas/ArgHelpText), and each block is computed (Lemmas/ArgHelpLines). The tools by evaluation of their declarations.",
"C86":"The loop over the strings keeps an invariant by induction on its bound: every string that was passed belongs to a part or is left over, and every error of a step has its reason in the command line (Lemmas/ArgWhyLine loop_why, loop_left; steps in Lemmas/ArgWhy). Ambiguous strings stop the classification before anything else is done, so this is an equivalence. That a string left over is no loss: the longest match of the positional patterns takes a string if the first missing argument needs one (matchPartial_max, none_left). Messages by cases (Lemmas/ArgSays); usage and help by C85.",
"C87":"repr of a value is a prefix code: a mutual induction on values (lists, items) shows that texts repr x ++ r and repr y ++ s are equal only if x = y and r = s (Lemmas/CacheKey repr_inj), so that keys tell calls. Sequences by induction with the simulation of the cache by a list in order of use (CRep); the invariant is that each entry is what the function gives for its key (transparent), respectively that just the keys of calls with results are present (once).",
"C88":"The width is a maximum, by induction on the entries; fields by lengths of digits. That the print tells the matrix: without blanks it does not depend on the width, and numbers end at the first comma or bracket (Lemmas/MatrixPrint dense_line, short_inj).",
"C89":"Splitting a path takes off its last name, whatever slashes it has (Lemmas/MakeDirs headTail_of); resolution is a fold over names, kept when directories are added (go_grown, by induction on the depth of links). The recursion by induction on the missing names from their end (makes, blocked, too_deep).",
"C90":"The form of a pattern is an inductive relation; the test is shown exact by induction on the pattern, with an inner induction for * over the characters it stands for. Counts over the concatenation by induction on the patterns; two sorted permutations are equal.",
}
