import Verif.Model.ArgHelp

/-! The calls of `add_argument` in the tools, bin/*.py (written from the source by a script, call by call). -/
namespace Verif.ArgHelp
open Verif Verif.Argparse

/-- 1564-1573, utils/cli.py:33-46: the calls in the constructor of a parser; `version` for DaesoArgParser. -/
def own (version : Bool) : List Decl :=
  { names := ["-h".toList, "--help".toList], action := .help, default := some none,
    help := some "show this help message and exit".toList } ::
  if version then [{ names := ["-v".toList, "--version".toList], action := .version, default := some none,
                     help := some "show program's version number and exit".toList }] else []

/-- A tool: its calls, whether it is a DaesoArgParser (with a version, and with texts as they are), and the parser. -/
structure Tool where
  calls : List Decl
  daeso : Bool
  parser : Parser

/-- bin/gb_stats.py:48-95. -/
def gbStatsTool : Tool := ⟨[
  { names := ["pattern".toList], help := some "*quoted* pattern for graph bank files".toList },
  { names := ["-F".toList, "--format".toList], metavar := some "STRING".toList,
    default := some (some (.str "alpino".toList)), dest := some "format",
    help := some "treebank format (defaults to 'alpino')".toList },
  { names := ["-a".toList, "--with-all".toList], action := .storeTrue, dest := some "with_all",
    help := some "include all, sets options -efp".toList },
  { names := ["-e".toList, "--with-empty-nodes".toList], action := .storeTrue, dest := some "with_empty_nodes",
    help := some "include empty nodes (traces)".toList },
  { names := ["-f".toList, "--with-failed-parses".toList], action := .storeTrue, dest := some "with_failed_parses",
    help := some "include failed parses".toList },
  { names := ["-l".toList, "--legenda".toList], action := .storeTrue, dest := some "legenda",
    help := some "print legenda".toList },
  { names := ["-p".toList, "--with-punc-nodes".toList], action := .storeTrue, dest := some "with_punc",
    help := some "include punctuation tokens/nodes".toList },
  { names := ["-t".toList, "--token_diff_threshold".toList], ty := some .int, metavar := some "THRESHOLD".toList,
    default := some (some (.int 0)), dest := some "threshold",
    help := some "exclude graph pairs with a token difference below the threshold".toList }],
  true, gbStats⟩

/-- bin/pgc_agreement.py:46-71. -/
def pgcAgreementTool : Tool := ⟨[
  { names := ["corpus_fns".toList], nargs := some .plus, metavar := some "corpus".toList,
    help := some "parallel graph corpus file (at least two are required)".toList },
  { names := ["-a".toList, "--annotator".toList], dest := some "annotators", metavar := some "CC".toList, action := .append,
    help := some "initials of the annotator of a parallel graph corpus files (default is 'A1', 'A2', etc.) Repeat this option as many times as there are corpus files".toList },
  { names := ["-p".toList, "--pickle".toList], dest := some "pickle_fn", metavar := some "FILE".toList,
    help := some "dump results to file as a Python pickle".toList },
  { names := ["-w".toList, "--words-only".toList], action := .storeTrue,
    help := some "consider word alignments only, ignoring all alignments involving at a non-terminal node".toList }],
  true, pgcAgreement⟩

/-- bin/pgc_chdir.py:49-74. -/
def pgcChdirTool : Tool := ⟨[
  { names := ["corpus".toList], nargs := some .plus, help := some "parallel graph corpus".toList },
  { names := ["-p".toList, "--path-prefix-pair".toList], nargs := some (.num 2),
    default := some (some (.list [.str "".toList, .str "".toList])), metavar := some "DIR".toList,
    help := some "a pair of path prefixes specifying what to change from and to".toList },
  { names := ["-t".toList, "--test".toList], action := .storeTrue,
    help := some "perform a dry run without changing anything for real (implies -V)".toList },
  { names := ["-V".toList, "--verbose".toList], action := .storeTrue, help := some "verbose output".toList }],
  true, pgcChdir⟩

/-- bin/pgc_cp.py:23-38. -/
def pgcCpTool : Tool := ⟨[
  { names := ["source".toList], nargs := some .plus, help := some "source parallel graph corpus file".toList },
  { names := ["target".toList], help := some "either a target parallel graph corpus file or a target directory".toList },
  { names := ["-o".toList, "--overwrite".toList], action := .storeTrue, help := some "overwrite existing file".toList }],
  true, pgcCp⟩

/-- bin/pgc_diff.py:39-79. -/
def pgcDiffTool : Tool := ⟨[
  { names := ["corpus1".toList], help := some "first parallel graph corpus".toList },
  { names := ["corpus2".toList], help := some "second parallel graph corpus".toList },
  { names := ["-1".toList, "--first_annotator".toList], metavar := some "NAME".toList,
    default := some (some (.str "First annotator".toList)), help := some "name of annotator of first corpus".toList },
  { names := ["-2".toList, "--second_annotator".toList], metavar := some "NAME".toList,
    default := some (some (.str "Second annotator".toList)), help := some "name of annotator of second corpus".toList },
  { names := ["-c".toList, "--with_comments".toList], action := .storeTrue, help := some "show annotator's comments".toList },
  { names := ["-e".toList, "--evaluate".toList], action := .storeTrue,
    help := some "show evaluation measures and statistics".toList },
  { names := ["-i".toList, "--with_ident".toList], action := .storeTrue, help := some "include identical alignments".toList },
  { names := ["-r".toList, "--relations".toList], metavar := some "REL".toList, nargs := some .star,
    help := some "limit output to given relations".toList }],
  true, pgcDiff⟩

/-- bin/pgc_extract_phrases.py:70-88. -/
def pgcExtractPhrasesTool : Tool := ⟨[
  { names := ["corpus".toList], nargs := some .plus, metavar := some "FILE".toList,
    help := some "parallel graph corpus file".toList },
  { names := ["-d".toList, "--delimiter".toList], default := some (some (.str "\t".toList)),
    help := some "column delimiter string (default is tab character '\\t')".toList },
  { names := ["-V".toList, "--verbose".toList], action := .storeTrue,
    help := some "print graph pair number, from and to bank id's, from and to graph id's, and from and to node id's".toList }],
  true, pgcExtractPhrases⟩

/-- bin/pgc_from_ptc.py:78-147. -/
def pgcFromPtcTool : Tool := ⟨[
  { names := ["-p".toList, "--parallel-text-corpora".toList], metavar := some "CORPUS".toList, nargs := some .plus,
    default := some (some (.list [])), help := some "parallel text corpora".toList },
  { names := ["-s".toList, "--source-graphbanks".toList], metavar := some "GRAPHBANK".toList, nargs := some .plus,
    default := some (some (.list [])), help := some "source graphbanks".toList },
  { names := ["-t".toList, "--target-graphbanks".toList], metavar := some "GRAPHBANK".toList, nargs := some .plus,
    default := some (some (.list [])), help := some "target graphbanks".toList },
  { names := ["--source-format".toList], metavar := some "alpino|graphml".toList,
    default := some (some (.str "alpino".toList)), help := some "format of source graphbanks (default is \"alpino\")".toList },
  { names := ["--target-format".toList], metavar := some "alpino|graphml".toList,
    default := some (some (.str "alpino".toList)), help := some "format of target graphbanks (default is \"alpino\")".toList },
  { names := ["--source-tag".toList], metavar := some "TAG".toList, default := some (some (.str "s".toList)),
    help := some "value of \"from_tag\" in <link> elements (default is \"s\")".toList },
  { names := ["--target-tag".toList], metavar := some "TAG".toList, default := some (some (.str "s".toList)),
    help := some "value of \"to_tag\" in <link> elements (default is \"s\")".toList },
  { names := ["--relations".toList], nargs := some .plus, metavar := some "REL".toList,
    default := some (some (.list [.str "equals".toList, .str "restates".toList, .str "specifies".toList, .str "generalizes".toList, .str "intersects".toList])),
    help := some "alignment relations (default is \"equals restates specifies generalizes intersects\")".toList },
  { names := ["--max-token-len".toList], ty := some .int, metavar := some "N".toList, default := some (some (.int 99999)),
    help := some "maximum number of tokens allowed in either of the aligned sentences (default is 99999)".toList },
  { names := ["--min-token-diff".toList], ty := some .int, metavar := some "N".toList, default := some (some (.int 0)),
    help := some "minimum difference in tokens allowed between the aligned sentences (default is 0)".toList }],
  true, pgcFromPtc⟩

/-- bin/pgc_join.py:45-63. -/
def pgcJoinTool : Tool := ⟨[
  { names := ["file".toList], nargs := some .plus, metavar := some "FILE".toList,
    help := some "parallel graph corpus filename, or quoted file name pattern for parallel graph corpora".toList },
  { names := ["-f".toList, "--format".toList], action := .storeTrue, help := some "output indented XML".toList },
  { names := ["-V".toList, "--verbose".toList], action := .storeTrue, help := some "verbose ouput to stderr".toList }],
  true, pgcJoin⟩

/-- bin/pgc_split.py:41-72. -/
def pgcSplitTool : Tool := ⟨[
  { names := ["filename".toList], metavar := some "FILE".toList, help := some "parallel graph corpus".toList },
  { names := ["-f".toList, "--format".toList], action := .storeTrue, help := some "output indented XML".toList },
  { names := ["-p".toList, "--parts".toList], default := some (some (.int 2)), ty := some .int, metavar := some "N".toList,
    help := some "number of parts".toList },
  { names := ["-s".toList, "--size".toList], ty := some .int, metavar := some "N".toList,
    help := some "number of graph pairs per part".toList },
  { names := ["-V".toList, "--verbose".toList], action := .storeTrue, help := some "verbose ouput to stderr".toList }],
  true, pgcSplit⟩

/-- bin/pgc_stats.py:48-103. -/
def pgcStatsTool : Tool := ⟨[
  { names := ["pattern".toList], help := some "*quoted* pattern for parallel graph corpus files".toList },
  { names := ["-a".toList, "--with-all".toList], action := .storeTrue, dest := some "with_all",
    help := some "include all, sets options -efpru".toList },
  { names := ["-e".toList, "--with-empty-nodes".toList], action := .storeTrue, dest := some "with_empty_nodes",
    help := some "include empty nodes (traces)".toList },
  { names := ["-f".toList, "--with-failed-parses".toList], action := .storeTrue, dest := some "with_failed_parses",
    help := some "include failed parses".toList },
  { names := ["-l".toList, "--legenda".toList], action := .storeTrue, dest := some "legenda",
    help := some "print legenda".toList },
  { names := ["-p".toList, "--with-punc-nodes".toList], action := .storeTrue, dest := some "with_punc",
    help := some "include punctuation tokens/nodes".toList },
  { names := ["-r".toList, "--with-unaligned-roots".toList], action := .storeTrue, dest := some "with_unaligned_roots",
    help := some "include graphs with unaligned root nodes".toList },
  { names := ["-t".toList, "--token_diff_threshold".toList], ty := some .notCallable, metavar := some "THRESHOLD".toList,
    default := some (some (.int 0)), dest := some "threshold",
    help := some "exclude graph pairs with a token difference below the threshold".toList },
  { names := ["-u".toList, "--with_unaligned-graphs".toList], action := .storeTrue, dest := some "with_unaligned_graphs",
    help := some "include unaligned graphs".toList }],
  true, pgcStats⟩

/-- bin/pgc_zip.py:76-86. -/
def pgcZipTool : Tool := ⟨[
  { names := ["zip_file".toList], metavar := some "ZIP_FILE".toList, help := some "filename of zip archive".toList },
  { names := ["pgc_files".toList], nargs := some .plus, metavar := some "CORPUS_FILE".toList,
    help := some "parallel graph corpus filename, or quoted file name pattern for parallel graph corpora".toList }],
  true, pgcZip⟩

/-- bin/ptc_chdir.py:40-65. -/
def ptcChdirTool : Tool := ⟨[
  { names := ["corpus".toList], nargs := some .plus, default := some (some (.str "parallel text corpus".toList)),
    help := some "".toList },
  { names := ["-d".toList, "--dir".toList], default := some (some (.str "".toList)),
    help := some "new directory for source and target files (defaults to none, which means stripping the existing directory)".toList },
  { names := ["-t".toList, "--test".toList], action := .storeTrue,
    help := some "perform a dry run without actually changing the files (implies -v)".toList },
  { names := ["-V".toList, "--verbose".toList], action := .storeTrue, help := some "verbose output".toList }],
  false, ptcChdir⟩

/-- bin/ptc_diff.py:38-55. -/
def ptcDiffTool : Tool := ⟨[
  { names := ["true_corpus".toList], help := some "parallel text corpus containing true alignments".toList },
  { names := ["pred_corpus".toList], help := some "parallel text corpus containing predicted alignments".toList },
  { names := ["-t".toList, "--tag".toList], default := some (some (.str "s".toList)),
    help := some "only consider alignments involving this tag (defaults is \"s\"".toList },
  { names := ["-e".toList, "--encoding".toList], default := some (some (.str "utf-8".toList)),
    help := some "character encoding of output (default is \"utf-8\")".toList }],
  true, ptcDiff⟩

/-- bin/ptc_eval.py:39-52. -/
def ptcEvalTool : Tool := ⟨[
  { names := ["-t".toList, "--true_corpora".toList], nargs := some .plus,
    help := some "parallel text corpus containing true alignments".toList },
  { names := ["-p".toList, "--pred_corpora".toList], nargs := some .plus,
    help := some "parallel text corpus containing predicted alignments".toList },
  { names := ["--tag".toList], default := some (some (.str "s".toList)),
    help := some "only consider alignments involving this tag (defaults is \"s\"".toList }],
  true, ptcEval⟩

/-- bin/ptc_n_to_id.py:39-51. -/
def ptcNToIdTool : Tool := ⟨[
  { names := ["corpus".toList], nargs := some .plus, default := some (some (.str "parallel text corpus".toList)),
    help := some "".toList },
  { names := ["-V".toList, "--verbose".toList], action := .storeTrue, help := some "verbose output".toList }],
  false, ptcNToId⟩

/-- The tools. -/
def allTools : List Tool := [gbStatsTool, pgcAgreementTool, pgcChdirTool, pgcCpTool, pgcDiffTool, pgcExtractPhrasesTool,
  pgcFromPtcTool, pgcJoinTool, pgcSplitTool, pgcStatsTool, pgcZipTool,
  ptcChdirTool, ptcDiffTool, ptcEvalTool, ptcNToIdTool]

/-- The parser of a tool with its texts. -/
def Tool.shown (t : Tool) : Except Refused (List Shown) := declare [] (own t.daeso ++ t.calls)

end Verif.ArgHelp
