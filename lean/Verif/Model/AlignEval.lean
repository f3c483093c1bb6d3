import Verif.Model.GraphPair
import Verif.PyNum
import Mathlib.Logic.Function.Basic
import Mathlib.Algebra.BigOperators.Group.List.Basic

/-! Model of lib/daeso/pgc/evaluate.py:118-300, 437-600, 685-755 (AlignEval, AlignCountsTable, AlignCounts; not the
printing).  Numbers are exact; `sd` is the square root of `var`.  The corpora are lists of the alignment graphs of their
graph pairs.  The state after an exception is not modelled. -/
namespace Verif.AlignEval
open Verif

/-- evaluate.py:690 `count_keys`. -/
inductive Count where
  | true | pred | common
  deriving DecidableEq

/-- evaluate.py:691 `measure_keys`. -/
inductive Measure where
  | prec | recall | f
  deriving DecidableEq

/-- evaluate.py:695 `counts`. -/
abbrev Counts := Count → Nat

/-- evaluate.py:696 `measures`. -/
abbrev Measures := Measure → ℚ

/-- A dict with the count keys, filled in order. -/
def perCount {α : Type} (f : Count → Py α) : Py (Count → α) := do
  let a ← f .true
  let b ← f .pred
  let c ← f .common
  return fun
    | .true => a
    | .pred => b
    | .common => c

/-- A dict with the measure keys, filled in order. -/
def perMeasure {α : Type} (f : Measure → Py α) : Py (Measure → α) := do
  let a ← f .prec
  let b ← f .recall
  let c ← f .f
  return fun
    | .prec => a
    | .recall => b
    | .f => c

/-- evaluate.py:705-716 `_calc_precision`. -/
def precision (c : Counts) : Py ℚ := Py.catchZeroDiv 0 (Py.div (c .common) (c .pred))

/-- evaluate.py:719-730 `_calc_recall`. -/
def recall (c : Counts) : Py ℚ := Py.catchZeroDiv 0 (Py.div (c .common) (c .true))

/-- evaluate.py:733-755 `_calc_f_score`. -/
def fScore (beta prec rec : ℚ) : Py ℚ :=
  if 0 ≤ beta ∧ beta ≤ 1 then
    Py.catchZeroDiv 0 (Py.div ((beta ^ 2 + 1) * prec * rec) (beta ^ 2 * prec + rec))
  else .error .assertionError

/-- evaluate.py:699-702 `AlignCounts.run_eval`. -/
def evalCounts (beta : ℚ) (c : Counts) : Py Measures := do
  let p ← precision c
  let r ← recall c
  let f ← fScore beta p r
  return fun
    | .prec => p
    | .recall => r
    | .f => f

/-- evaluate.py:514-530, 551-567, 583-599: sum of squared differences divided by n - 1, 0.0 for n = 1. -/
def variance (values : List ℚ) (mean : ℚ) : Py ℚ :=
  Py.catchZeroDiv 0 (Py.div (values.map fun v => (v - mean) ^ 2).sum (values.length - 1))

/-- evaluate.py:465-600: results of `AlignCountsTable.run_eval`. -/
structure TableStats where
  rows : List Measures
  sum : Count → Nat
  countMean : Count → ℚ
  countVar : Count → ℚ
  macroMean : Measure → ℚ
  macroVar : Measure → ℚ
  microMean : Measure → ℚ
  microVar : Measure → ℚ

/-- evaluate.py:487-600 `AlignCountsTable.run_eval`. -/
def evalTable (t : List Counts) : Py TableStats := do
  let rows ← t.mapM (evalCounts 1)
  let sum : Count → Nat := fun c => (t.map fun x => x c).sum
  let countMean ← perCount fun c => Py.div (sum c) t.length
  let countVar ← perCount fun c => variance (t.map fun x => (x c : ℚ)) (countMean c)
  let macroMean ← perMeasure fun m => Py.div (rows.map fun x => x m).sum t.length
  let macroVar ← perMeasure fun m => variance (rows.map fun x => x m) (macroMean m)
  let microMean ← evalCounts 1 sum
  let microVar ← perMeasure fun m => variance (rows.map fun x => x m) (microMean m)
  return ⟨rows, sum, countMean, countVar, macroMean, macroVar, microMean, microVar⟩

/-- evaluate.py:181 `any_rel`. -/
def anyRel : String := "__any_rel__"

/-- evaluate.py:184-192: the relations, the names and the tables. -/
structure Eval where
  relations : List String
  names : List String
  tables : AD String (List Counts)

/-- evaluate.py:184-204 `__init__`. -/
def new (relations : List String) : Eval :=
  ⟨relations, [], relations.foldl (fun d r => d.set r []) [(anyRel, [])]⟩

/-- `self[rel][-1].counts[c] += n`. -/
def bump (d : AD String (List Counts)) (rel : String) (c : Count) (n : Nat) : Py (AD String (List Counts)) :=
  match d.get? rel with
  | none => .error .keyError
  | some rows => match rows.getLast? with
    | none => .error .indexError
    | some row => .ok (d.set rel (rows.dropLast ++ [Function.update row c (row c + n)]))

/-- evaluate.py:231-242: one true alignment.  An empty relation counts as false. -/
def addTrue (pred : Graph.G String String) (x : (String × String) × String) (d : AD String (List Counts)) :
    Py (AD String (List Counts)) := do
  let d ← bump d x.2 .true 1
  match ← GraphPair.getAlign pred x.1.1 x.1.2 with
  | none => return d
  | some r => if r = "" then return d else do
    let d ← bump d anyRel .common 1
    if r = x.2 then bump d x.2 .common 1 else return d

/-- evaluate.py:227-255: one pair of graph pairs. -/
def addPair (x : Graph.G String String × Graph.G String String) (d : AD String (List Counts)) :
    Py (AD String (List Counts)) := do
  let ts ← GraphPair.alignments x.1 none
  let d ← Py.forIn ts d (addTrue x.2)
  let d ← bump d anyRel .true ts.length
  let ps ← GraphPair.alignments x.2 none
  let d ← Py.forIn ps d fun y d => bump d y.2 .pred 1
  bump d anyRel .pred ps.length

/-- evaluate.py:207-255 `add`. -/
def add (e : Eval) (ts ps : List (Graph.G String String)) (name : Option String) : Py Eval :=
  if ts.length ≠ ps.length then .error .assertionError
  else match e.tables.get? anyRel with
    | none => .error .keyError
    | some any => do
      let name := match name with
        | some n => if n = "" then s!"part{any.length + 1}" else n
        | none => s!"part{any.length + 1}"
      let d ← Py.forIn (ts.zip ps) (e.tables.map fun x => (x.1, x.2 ++ [fun _ => 0])) addPair
      return ⟨e.relations, e.names ++ [name], d⟩

/-- evaluate.py:258-300: results of `AlignEval.run_eval`. -/
structure EvalStats where
  tables : AD String TableStats
  sum : Count → Nat
  macroMean : Measure → ℚ
  microMean : Measure → ℚ

/-- The tables of these relations. -/
def select (d : AD String TableStats) (rels : List String) : Py (List TableStats) := rels.mapM fun r => d.get r

/-- evaluate.py:258-300 `AlignEval.run_eval`.  The loop over `zip(self.relations, self)` ends with the shorter one. -/
def runEval (e : Eval) : Py EvalStats := do
  let tables ← e.tables.mapM fun x => do
    let t ← evalTable x.2
    return (x.1, t)
  let all ← select tables e.relations
  let sum : Count → Nat := fun c => (all.map fun t => t.sum c).sum
  let part ← select tables (e.relations.take e.tables.length)
  let macroMean ← perMeasure fun m => Py.div (part.map fun t => t.microMean m).sum e.relations.length
  let microMean ← evalCounts 1 sum
  return ⟨tables, sum, macroMean, microMean⟩

end Verif.AlignEval
