import Verif.Props.Levenshtein
import Verif.Props.Lcs
import Verif.Props.NGram
import Verif.Props.Similar
import Verif.Props.Rouge
import Verif.Props.Median
import Verif.Props.NeedlemanWunsch
import Verif.Props.SmithWaterman
import Verif.Props.TfIdf
import Verif.Props.Number
import Verif.Props.ODict
import Verif.Props.Counter
import Verif.Props.Munkres
import Verif.Props.LRUStock
import Verif.Props.GenericCache
import Verif.Props.Graph
import Verif.Props.DaesoGraph
import Verif.Props.GraphPair
import Verif.Props.Etree
import Verif.Props.Corpus
import Verif.Props.Pgc
import Verif.Props.AlignEval
import Verif.Props.PgcDiff
import Verif.Props.Agreement
import Verif.Props.IElemTree
import Verif.Props.HitaextDoc
import Verif.Props.TextAlign
import Verif.Props.Creation
import Verif.Props.PgcTools
import Verif.Props.Stats
import Verif.Props.Graphml
import Verif.Props.GraphmlFile
import Verif.Props.CacheThreads
import Verif.Props.PtcEval
import Verif.Props.PtcDiff
import Verif.Props.StatsTable
import Verif.Props.StatsCorpus
import Verif.Props.PtcChdir
import Verif.Props.HitaextFile
import Verif.Props.PgcZip
import Verif.Props.RelPath
import Verif.Props.PgcCp
import Verif.Props.PtcConvert
import Verif.Props.Phrases
import Verif.Props.FromPtc
import Verif.Props.AlignFloat
import Verif.Props.SimilarFloat
import Verif.Props.EvalFloat
import Verif.Props.AlignPrint
import Verif.Props.EvalPrint
import Verif.Props.DiffPrint
import Verif.Props.Pair
import Verif.Props.MunkresFloat
import Verif.Props.CommandLine
import Verif.Props.SplitJoin
import Verif.Props.UsageHelp
import Verif.Props.CommandErrors
import Verif.Props.CacheKey
import Verif.Props.MatrixPrint
import Verif.Props.MakeDirs
import Verif.Props.FileGlob
