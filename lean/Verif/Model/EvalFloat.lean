import Verif.Model.SimilarFloat
import Verif.Model.AlignEval
import Verif.Model.Agreement
import Verif.Model.PtcEval
import Verif.Model.TextAlign

/-! Model of lib/daeso/pgc/evaluate.py:487-600, 699-755, lib/daeso/pgc/agreement.py:71-100, 183-235,
lib/daeso/ptc/evaluate.py:113-134 and lib/daeso/ptc/textalign.py:405-415 with rounded arithmetic (see SimilarFloat): `fl`
rounds the result of an operation on floats, `sq` is math.sqrt.  A square `x ** 2` is the product rounded.  Overflow and
underflow are not modelled. -/
namespace Verif.EvalFloat
open Verif Verif.Measure Verif.AlignEval

/-- `math.sqrt`, which refuses negative numbers. -/
def sqrtPy (sq : ℚ → ℚ) (x : ℚ) : Py ℚ := if x < 0 then .error .valueError else .ok (sq x)

/-- `sum(...)` and `x += ...` over floats. -/
def sumFl (fl : ℚ → ℚ) (a : ℚ) (l : List ℚ) : ℚ := l.foldl (fun a x => fl (a + x)) a

/-- evaluate.py:517-521, 555-558, 588-591 `sum_of_diff += (value - mean) ** 2`. -/
def devFl (fl : ℚ → ℚ) (mean a : ℚ) (l : List ℚ) : ℚ := l.foldl (fun a x => fl (a + fl (fl (x - mean) ^ 2))) a

/-- evaluate.py:705-716 `_calc_precision`. -/
def precisionFl (fl : ℚ → ℚ) (c : Counts) : Py ℚ := Py.catchZeroDiv 0 (ratioFl fl (c .common) (c .pred))

/-- evaluate.py:719-730 `_calc_recall`. -/
def recallFl (fl : ℚ → ℚ) (c : Counts) : Py ℚ := Py.catchZeroDiv 0 (ratioFl fl (c .common) (c .true))

/-- evaluate.py:733-755 `_calc_f_score`. -/
def fScoreFl (fl : ℚ → ℚ) (beta prec rec : ℚ) : Py ℚ :=
  if 0 ≤ beta ∧ beta ≤ 1 then
    let b := fl (beta ^ 2)
    Py.catchZeroDiv 0 (divFl fl (fl (fl (fl (b + 1) * prec) * rec)) (fl (fl (b * prec) + rec)))
  else .error .assertionError

/-- evaluate.py:699-702 `AlignCounts.run_eval`. -/
def evalCountsFl (fl : ℚ → ℚ) (beta : ℚ) (c : Counts) : Py Measures := do
  let p ← precisionFl fl c
  let r ← recallFl fl c
  let f ← fScoreFl fl beta p r
  return fun
    | .prec => p
    | .recall => r
    | .f => f

/-- evaluate.py:513-530, 551-567, 583-599: variance, 0.0 for n = 1. -/
def varianceFl (fl : ℚ → ℚ) (values : List ℚ) (mean : ℚ) : Py ℚ :=
  Py.catchZeroDiv 0 (divFl fl (devFl fl mean 0 values) (fl (fl values.length - 1)))

/-- evaluate.py:465-600: results of `AlignCountsTable.run_eval`. -/
structure TableFl where
  rows : List Measures
  sum : Count → Nat
  countMean : Count → ℚ
  countVar : Count → ℚ
  countSd : Count → ℚ
  macroMean : Measure → ℚ
  macroVar : Measure → ℚ
  macroSd : Measure → ℚ
  microMean : Measure → ℚ
  microVar : Measure → ℚ
  microSd : Measure → ℚ

/-- evaluate.py:487-600 `AlignCountsTable.run_eval`.  A variance and its root are calculated in turn for each key; here
first all variances. -/
def evalTableFl (fl sq : ℚ → ℚ) (t : List Counts) : Py TableFl := do
  let rows ← t.mapM (evalCountsFl fl 1)
  let sum : Count → Nat := fun c => (t.map fun x => x c).sum
  let countMean ← perCount fun c => ratioFl fl (sum c) t.length
  let countVar ← perCount fun c => varianceFl fl (t.map fun x => fl (x c)) (countMean c)
  let countSd ← perCount fun c => sqrtPy sq (countVar c)
  let macroMean ← perMeasure fun m => divFl fl (sumFl fl 0 (rows.map fun x => x m)) (fl t.length)
  let macroVar ← perMeasure fun m => varianceFl fl (rows.map fun x => x m) (macroMean m)
  let macroSd ← perMeasure fun m => sqrtPy sq (macroVar m)
  let microMean ← evalCountsFl fl 1 sum
  let microVar ← perMeasure fun m => varianceFl fl (rows.map fun x => x m) (microMean m)
  let microSd ← perMeasure fun m => sqrtPy sq (microVar m)
  return ⟨rows, sum, countMean, countVar, countSd, macroMean, macroVar, macroSd, microMean, microVar, microSd⟩

open Verif.Agreement in
/-- agreement.py:197-201: sum of a column without the diagonal. -/
def columnSumFl (fl : ℚ → ℚ) (labels : List String) (d : Table) (col : String) : Py ℚ :=
  Py.forIn labels 0 fun row a => if col ≠ row then do
      let v ← cell d row col
      return fl (a + v)
    else return a

open Verif.Agreement in
/-- agreement.py:196-205, one column. -/
def avColumnFl (fl : ℚ → ℚ) (labels : List String) (col : String) (s : Table × ℚ) : Py (Table × ℚ) := do
  let sum ← columnSumFl fl labels s.1 col
  let m ← divFl fl sum (fl (labels.length - 1))
  let d ← setCell s.1 "mean" col m
  return (d, fl (s.2 + sum))

open Verif.Agreement in
/-- agreement.py:188-208 `calculate_av`. -/
def calculateAvFl (fl : ℚ → ℚ) (labels : List String) (d : Table) : Py Table := do
  let s ← Py.forIn labels (d, 0) (avColumnFl fl labels)
  let m ← divFl fl s.2 (fl (labels.length * (labels.length - 1)))
  setCell s.1 "mean" "overall" m

open Verif.Agreement in
/-- agreement.py:223-226: squared differences in a column with the column mean and the overall mean. -/
def columnDevFl (fl : ℚ → ℚ) (labels : List String) (d : Table) (colAv overallAv : ℚ) (col : String) (o : ℚ) : Py (ℚ × ℚ) :=
  Py.forIn labels (0, o) fun row a => if col ≠ row then do
      let v ← cell d row col
      return (fl (a.1 + fl (fl (v - colAv) ^ 2)), fl (a.2 + fl (fl (v - overallAv) ^ 2)))
    else return a

open Verif.Agreement in
/-- agreement.py:219-232, one column.  The root is taken inside the `try`; it does not raise ZeroDivisionError. -/
def sdColumnFl (fl sq : ℚ → ℚ) (labels : List String) (overallAv : ℚ) (col : String) (s : Table × ℚ) : Py (Table × ℚ) := do
  let colAv ← cell s.1 "mean" col
  let dev ← columnDevFl fl labels s.1 colAv overallAv col s.2
  let v ← Py.catchZeroDiv 0 (do
    let q ← divFl fl dev.1 (fl (labels.length - 1 - 1))
    sqrtPy sq q)
  let d ← setCell s.1 "SD" col v
  return (d, dev.2)

open Verif.Agreement in
/-- agreement.py:211-235 `calculate_sd`. -/
def calculateSdFl (fl sq : ℚ → ℚ) (labels : List String) (d : Table) : Py Table := do
  let overallAv ← cell d "mean" "overall"
  let s ← Py.forIn labels (d, 0) (sdColumnFl fl sq labels overallAv)
  let q ← divFl fl s.2 (fl (labels.length * (labels.length - 1) - 1))
  let v ← sqrtPy sq q
  setCell s.1 "SD" "overall" v

open Verif.Agreement in
/-- agreement.py:183-185 `calculate_statistics`. -/
def calculateStatisticsFl (fl sq : ℚ → ℚ) (labels : List String) (d : Table) : Py Table := do
  let d ← calculateAvFl fl labels d
  calculateSdFl fl sq labels d

open Verif.Agreement in
/-- agreement.py:88-94: the table of one relation and measure, given the rows of the relation. -/
def tableizeFl (fl sq : ℚ → ℚ) (names : List (String × String)) (rows : List Measures) (m : Measure) : Py Table := do
  let d ← Py.forIn (names.zip rows) (newTable (labelsOf names)) fun x d => setCell d x.1.1 x.1.2 (x.2 m)
  calculateStatisticsFl fl sq (labelsOf names) d

/-- ptc/evaluate.py:113-134 `compute_scores`: ratio, precision, recall and F. -/
def computeScoresFl (fl : ℚ → ℚ) (nTrue nPred nCommon : Nat) : Py (ℚ × ℚ × ℚ × ℚ) := do
  let ratio ← Py.catchZeroDiv 0 (ratioFl fl nPred nTrue)
  let recall ← Py.catchZeroDiv 0 (ratioFl fl nCommon nTrue)
  let precision ← Py.catchZeroDiv 0 (ratioFl fl nCommon nPred)
  let f ← Py.catchZeroDiv 0 (divFl fl (fl (fl (2 * precision) * recall)) (fl (precision + recall)))
  return (ratio, precision, recall, f)

/-- textalign.py:405-415 `weighted_cosine_sim` of weights that are floats. -/
def weightedCosineFl (fl sq : ℚ → ℚ) (v w : List ℚ) : Py ℚ :=
  let dot := sumFl fl 0 (List.zipWith (fun x y => fl (x * y)) v w)
  let v1 := sumFl fl 0 (v.map fun x => fl (x ^ 2))
  let v2 := sumFl fl 0 (w.map fun x => fl (x ^ 2))
  Py.catchZeroDiv 0 (do
    let r ← sqrtPy sq (fl (v1 * v2))
    divFl fl dot r)

end Verif.EvalFloat
