import Verif.Model.AlignPrint
import Verif.Model.Agreement

/-! Model of lib/daeso/pgc/evaluate.py:303-404, 602-680, lib/daeso/utils/report.py:29-37 and
lib/daeso/pgc/agreement.py:61-68, 238-301: printing evaluations and agreement tables, after `run_eval`.  The square root of
a variance is rounded by the platform, so that it is a parameter `sqrt`, and the text `repr(s)` of a string is a parameter `repr`. -/
namespace Verif.EvalPrint
open Verif Verif.Etree Verif.StatsTable Verif.AlignPrint Verif.AlignEval

/-- A name of a row: `str(name)` and `len(name)`. -/
structure Name where
  text : Text
  len : Nat

/-- A name that is a string. -/
def Name.ofText (t : Text) : Name := ⟨t, t.length⟩

/-- agreement.py:121: a name that is a pair of annotators. -/
def Name.ofPair (repr : Text → Text) (p : Text × Text) : Name :=
  ⟨"(".toList ++ repr p.1 ++ ", ".toList ++ repr p.2 ++ ")".toList, 2⟩

/-- `"%.kf" % q`. -/
def showPlaces (k : Nat) (q : ℚ) : Text :=
  let h := roundEven (|q| * 10 ^ k)
  let d := Nat.toDigits 10 (h % 10 ^ k)
  (if q < 0 then ['-'] else []) ++ Nat.toDigits 10 (h / 10 ^ k) ++ '.' :: (List.replicate (k - d.length) '0' ++ d)

/-- evaluate.py:660-662, 674-676, 385-387: `if percent: value *= 100` and `"%.2f"`. -/
def showMeasure (percent : Bool) (q : ℚ) : Text := showPlaces 2 (if percent then q * 100 else q)

/-- A line of a table: the label at the left, the fields at the right. -/
def line (a w : Nat) (label : Text) (fields : List Text) : Text := ljust a label ++ (fields.map (rjust w)).flatten ++ ['\n']

/-- evaluate.py:690 `count_keys`. -/
def countKeys : List Count := [.true, .pred, .common]

/-- evaluate.py:691 `measure_keys`. -/
def measureKeys : List Measure := [.prec, .recall, .f]

/-- evaluate.py:617-618 `c.capitalize() + ":"`. -/
def countTitle : Count → Text
  | .true => "True:".toList
  | .pred => "Pred:".toList
  | .common => "Common:".toList

/-- evaluate.py:650-651 `m.capitalize() + ":"`. -/
def measureTitle : Measure → Text
  | .prec => "Prec:".toList
  | .recall => "Rec:".toList
  | .f => "F:".toList

/-- evaluate.py:604-605 `namespace`; ValueError without names. -/
def namespaceOf : List Name → Py Nat
  | [] => .error .valueError
  | n :: l => .ok (max ((l.map Name.len).foldl max n.len + 4) 14)

/-- evaluate.py:607-608, 338 `separator`. -/
def separator (n : Nat) : Text := List.replicate n '-' ++ ['\n']

/-- evaluate.py:614-642: the counts. -/
def countPart (sqrt : ℚ → ℚ) (a : Nat) (names : List Name) (counts : List Counts) (s : TableStats) : Text :=
  line a 14 "Name:".toList (countKeys.map countTitle) ++ separator (a + 3 * 14) ++
  ((names.zip counts).map fun x => line a 14 x.1.text (countKeys.map fun c => str (x.2 c))).flatten ++
  separator (a + 3 * 14) ++
  line a 14 "Sum:".toList (countKeys.map fun c => str (s.sum c)) ++
  line a 14 "Mean:".toList (countKeys.map fun c => showPlaces 2 (s.countMean c)) ++
  line a 14 "Var:".toList (countKeys.map fun c => showPlaces 2 (s.countVar c)) ++
  line a 14 "Sd:".toList (countKeys.map fun c => showPlaces 2 (sqrt (s.countVar c)))

/-- evaluate.py:648-678: the measures. -/
def measurePart (sqrt : ℚ → ℚ) (percent : Bool) (a : Nat) (names : List Name) (s : TableStats) : Text :=
  line a 14 "Name:".toList (measureKeys.map measureTitle) ++ separator (a + 3 * 14) ++
  ((names.zip s.rows).map fun x => line a 14 x.1.text (measureKeys.map fun m => showMeasure percent (x.2 m))).flatten ++
  separator (a + 3 * 14) ++
  line a 14 "Macro Mean:".toList (measureKeys.map fun m => showMeasure percent (s.macroMean m)) ++
  line a 14 "Macro Var:".toList (measureKeys.map fun m => showMeasure percent (s.macroVar m)) ++
  line a 14 "Macro Sd:".toList (measureKeys.map fun m => showMeasure percent (sqrt (s.macroVar m))) ++
  line a 14 "Micro Mean:".toList (measureKeys.map fun m => showMeasure percent (s.microMean m)) ++
  line a 14 "Micro Var:".toList (measureKeys.map fun m => showMeasure percent (s.microVar m)) ++
  line a 14 "Micro Sd:".toList (measureKeys.map fun m => showMeasure percent (sqrt (s.microVar m)))

/-- evaluate.py:602-680 `AlignCountsTable.write`. -/
def writeTable (sqrt : ℚ → ℚ) (percent : Bool) (heading : Text) (names : List Name) (counts : List Counts) (s : TableStats) : Out :=
  match namespaceOf names with
  | .error e => ([], some e)
  | .ok a => ((if heading = [] then [] else heading ++ "\n\n".toList) ++ countPart sqrt a names counts s ++ "\n\n".toList ++
      measurePart sqrt percent a names s ++ "\n\n".toList, none)

/-- report.py:29-37 `header`. -/
def header (head : Text) : Text :=
  List.replicate 80 '=' ++ ['\n'] ++ head ++ ['\n'] ++ List.replicate 80 '=' ++ "\n\n".toList

/-- `self[rel].write(...)`; KeyError for an unknown relation. -/
def writeRelation (sqrt : ℚ → ℚ) (names : List Name) (e : Eval) (s : EvalStats) (heading : Text) (rel : String) : Out :=
  match e.tables.get? rel, s.tables.get? rel with
  | some t, some ts => writeTable sqrt true heading names t ts
  | _, _ => ([], some .keyError)

/-- evaluate.py:315-320 `write_alignment_only`. -/
def writeOnly (sqrt : ℚ → ℚ) (names : List Name) (e : Eval) (s : EvalStats) : Out :=
  Out.andThen (header "Alignment only (regardlless of relation)".toList, none) (writeRelation sqrt names e s [] anyRel)

/-- evaluate.py:323-330 `write_alignment_per_relation`. -/
def writePerRelation (sqrt : ℚ → ℚ) (names : List Name) (e : Eval) (s : EvalStats) : Out :=
  Out.andThen (header "Alignment per relation".toList, none)
    (writeAll (fun rel => writeRelation sqrt names e s (rel.toList.map Char.toUpper) rel) e.relations)

/-- One line of a relation; KeyError for an unknown one. -/
def relationLine (f : TableStats → List Text) (s : EvalStats) (rel : String) : Out := match s.tables.get? rel with
  | some ts => (line 14 14 rel.toList (f ts), none)
  | none => (ljust 14 rel.toList, some .keyError)

/-- evaluate.py:333-404 `write_alignment_overall`.  The loops over `zip(self.relations, self)` end with the shorter one. -/
def writeOverall (percent : Bool) (e : Eval) (s : EvalStats) : Out :=
  Out.andThen (header "Alignment over all relations".toList ++
      line 14 14 "Relation:".toList (countKeys.map countTitle) ++ separator (4 * 14), none)
    (Out.andThen (writeAll (relationLine (fun ts => countKeys.map fun c => str (ts.sum c)) s) (e.relations.take e.tables.length))
      (Out.andThen (separator (4 * 14) ++ line 14 14 "Sum:".toList (countKeys.map fun c => str (s.sum c)) ++ "\n\n".toList ++
          line 14 14 "Relation:".toList (measureKeys.map measureTitle) ++ separator (4 * 14), none)
        (Out.andThen (writeAll (relationLine (fun ts => measureKeys.map fun m => showMeasure percent (ts.microMean m)) s)
            (e.relations.take e.tables.length))
          (separator (4 * 14) ++
            line 14 14 "Macro Mean:".toList (measureKeys.map fun m => showMeasure percent (s.macroMean m)) ++
            line 14 14 "Micro Mean:".toList (measureKeys.map fun m => showMeasure percent (s.microMean m)) ++
            "\n\n".toList, none))))

/-- evaluate.py:303-312 `AlignEval.write`. -/
def writeEval (sqrt : ℚ → ℚ) (names : List Name) (e : Eval) (s : EvalStats) : Out :=
  Out.andThen (writeOnly sqrt names e s) (Out.andThen (writePerRelation sqrt names e s) (writeOverall true e s))

/-! ### Agreement -/

/-- `"%11s:" % label`. -/
def label11 (l : Text) : Text := rjust 11 l ++ [':']

/-- agreement.py:255-262: `float_format % (value * factor)`. -/
def showCell (percent : Bool) (q : ℚ) : Text :=
  rjust 12 (if percent then showPlaces 2 (q * 100) else showPlaces 4 q)

/-- agreement.py:282, 295, 297: one cell; KeyError if the matrix does not have it. -/
def matrixCell (percent : Bool) (f : ℚ → ℚ) (d : Agreement.Table) (row col : String) : Out := match Agreement.cell d row col with
  | .ok q => (showCell percent (f q), none)
  | .error e => ([], some e)

/-- agreement.py:276-286: the line of an annotator. -/
def annotatorLine (percent : Bool) (labels : List String) (d : Agreement.Table) (row : String) : Out :=
  Out.andThen (label11 row.toList, none)
    (Out.andThen (writeAll (fun col => if row ≠ col then matrixCell percent id d row col else (spaces 12, none)) labels) (['\n'], none))

/-- agreement.py:290-299: the line of the means or of the standard deviations. -/
def statLine (percent : Bool) (f : ℚ → ℚ) (labels : List String) (d : Agreement.Table) (row : String) : Out :=
  Out.andThen (label11 row.toList, none)
    (Out.andThen (writeAll (matrixCell percent f d row) (labels ++ ["overall"])) (['\n'], none))

/-- agreement.py:254-301 `FormatAnalysesMatrix.write`.  Where the code has a standard deviation the model has its square. -/
def writeMatrix (sqrt : ℚ → ℚ) (percent : Bool) (heading : Text) (labels : List String) (d : Agreement.Table) : Out :=
  Out.andThen ((if heading = [] then [] else heading ++ "\n\n".toList) ++ spaces 12 ++
      ((labels ++ ["overall"]).map fun l => label11 l.toList).flatten ++ '\n' :: separator ((labels.length + 2) * 12), none)
    (Out.andThen (writeAll (annotatorLine percent labels d) labels)
      (Out.andThen (separator ((labels.length + 2) * 12), none)
        (Out.andThen (statLine percent id labels d "mean")
          (Out.andThen (statLine percent sqrt labels d "SD") ("\n\n".toList, none)))))

/-- agreement.py:68 `measure.upper()`. -/
def measureName : Measure → Text
  | .prec => "PREC".toList
  | .recall => "REC".toList
  | .f => "F".toList

/-- agreement.py:61-68 `write_tables`.  The tables and the measures are in the order of their dicts. -/
def writeTables (sqrt : ℚ → ℚ) (labels : List String) (tables : List (String × List (Measure × Agreement.Table))) : Out :=
  writeAll (fun x => Out.andThen (List.replicate 80 '=' ++ "\nAgreement on relation ".toList ++ x.1.toList ++ ['\n'] ++
      List.replicate 80 '=' ++ "\n\n".toList, none)
    (writeAll (fun y => writeMatrix sqrt true (measureName y.1) labels y.2) x.2)) tables

end Verif.EvalPrint
