import Verif.Model.AlignEval
import Mathlib.Data.List.Sort
import Mathlib.Data.List.Dedup

/-! Model of lib/daeso/pgc/agreement.py:71-235 (cross_evaluate, read_corpora, tableize, AnalysesTable; not reading,
pickling and printing).  Numbers are exact, and where the code stores a standard deviation the model stores its square. -/
namespace Verif.Agreement
open Verif Verif.AlignEval

/-- agreement.py:112-113 `["A%d" % (i+1) ...]`. -/
def defaultNames (n : Nat) : List String := (List.range n).map fun i => s!"A{i + 1}"

/-- agreement.py:109-113: the names used. -/
def annotatorNames (n : Nat) : Option (List String) → Py (List String)
  | none => .ok (defaultNames n)
  | some [] => .ok (defaultNames n)
  | some l => if l.length = n then .ok l else .error .assertionError

/-- agreement.py:118-122: the comparisons, in order. -/
def comparisons {α : Type} (corpora : List α) (names : List String) : List ((String × String) × α × α) :=
  (corpora.zip names).flatMap fun t => ((corpora.zip names).filter fun p => t.2 ≠ p.2).map fun p => ((t.2, p.2), (t.1, p.1))

/-- agreement.py:103-129 `cross_evaluate` of corpora: the names and the evaluation.  The names are pairs and recorded
as they are. -/
def crossEvaluate (relations : List String) (corpora : List (List (Graph.G String String))) (annotators : Option (List String)) :
    Py (List (String × String) × Eval × EvalStats) := do
  let names ← annotatorNames corpora.length annotators
  let cs := comparisons corpora names
  let e ← Py.forIn cs (new relations) fun c e => add e c.2.1 c.2.2 (some "pair")
  let s ← runEval e
  return (cs.map Prod.fst, e, s)

/-- agreement.py:151-154: remove the alignments that involve a non-terminal node, given `node_is_non_terminal` of the two
graphs. -/
def wordsOnly (ntS ntT : String → Py Bool) (g : Graph.G String String) : Py (Graph.G String String) := do
  let l ← GraphPair.alignments g none
  Py.forIn l g fun x g => do
    if ← (do if ← ntS x.1.1 then return true else ntT x.1.2) then GraphPair.delAlign g x.1.1 x.1.2 else return g

/-- agreement.py:161-180 `AnalysesTable`: dict of dicts. -/
abbrev Table := AD String (AD String ℚ)

/-- agreement.py:169-180 `__init__`. -/
def newTable (labels : List String) : Table := (labels ++ ["mean", "SD"]).foldl (fun d l => d.set l []) []

/-- `self[row][col]`. -/
def cell (d : Table) (row col : String) : Py ℚ := do
  let r ← d.get row
  r.get col

/-- `self[row][col] = v`. -/
def setCell (d : Table) (row col : String) (v : ℚ) : Py Table := do
  let r ← d.get row
  return d.set row (r.set col v)

/-- agreement.py:197-201: sum of a column without the diagonal. -/
def columnSum (labels : List String) (d : Table) (col : String) : Py ℚ :=
  Py.forIn labels 0 fun row a => if col ≠ row then do
      let v ← cell d row col
      return a + v
    else return a

/-- agreement.py:196-205, one column. -/
def avColumn (labels : List String) (col : String) (s : Table × ℚ) : Py (Table × ℚ) := do
  let sum ← columnSum labels s.1 col
  let m ← Py.div sum (labels.length - 1)
  let d ← setCell s.1 "mean" col m
  return (d, s.2 + sum)

/-- agreement.py:188-208 `calculate_av`. -/
def calculateAv (labels : List String) (d : Table) : Py Table := do
  let s ← Py.forIn labels (d, 0) (avColumn labels)
  let m ← Py.div s.2 (labels.length * (labels.length - 1))
  setCell s.1 "mean" "overall" m

/-- agreement.py:223-226: squared differences in a column with the column mean and the overall mean. -/
def columnDev (labels : List String) (d : Table) (colAv overallAv : ℚ) (col : String) (o : ℚ) : Py (ℚ × ℚ) :=
  Py.forIn labels (0, o) fun row a => if col ≠ row then do
      let v ← cell d row col
      return (a.1 + (v - colAv) ^ 2, a.2 + (v - overallAv) ^ 2)
    else return a

/-- agreement.py:219-232, one column. -/
def sdColumn (labels : List String) (overallAv : ℚ) (col : String) (s : Table × ℚ) : Py (Table × ℚ) := do
  let colAv ← cell s.1 "mean" col
  let dev ← columnDev labels s.1 colAv overallAv col s.2
  let v ← Py.catchZeroDiv 0 (Py.div dev.1 (labels.length - 1 - 1))
  let d ← setCell s.1 "SD" col v
  return (d, dev.2)

/-- agreement.py:211-235 `calculate_sd`, with squares of standard deviations. -/
def calculateSd (labels : List String) (d : Table) : Py Table := do
  let overallAv ← cell d "mean" "overall"
  let s ← Py.forIn labels (d, 0) (sdColumn labels overallAv)
  let v ← Py.div s.2 (labels.length * (labels.length - 1) - 1)
  setCell s.1 "SD" "overall" v

/-- agreement.py:183-185 `calculate_statistics`. -/
def calculateStatistics (labels : List String) (d : Table) : Py Table := do
  let d ← calculateAv labels d
  calculateSd labels d

/-- agreement.py:78-79: sorted keys of the dict of the names. -/
def labelsOf (names : List (String × String)) : List String := (names.map Prod.fst).dedup.insertionSort (· ≤ ·)

/-- agreement.py:88-94: the table of one relation and measure, given the rows of the relation. -/
def tableize (names : List (String × String)) (rows : List Measures) (m : Measure) : Py Table := do
  let d ← Py.forIn (names.zip rows) (newTable (labelsOf names)) fun x d => setCell d x.1.1 x.1.2 (x.2 m)
  calculateStatistics (labelsOf names) d

end Verif.Agreement
