import Verif.Spec.AlignPrint
import Verif.Spec.Table
import Verif.Spec.Scores
import Verif.Model.AlignEval

/-! What a printed evaluation looks like (C76). -/
namespace Verif.Spec.EvalPrint
open Verif.Etree Verif.AlignEval Verif.Spec.AlignPrint

/-- `t` is the text of `q` with `k` decimals: rounded to the nearest one, halves to the even one. -/
def Decimals (k : Nat) (q : ℚ) (t : Text) : Prop := ∃ (h : Nat) (f : Text),
  |(|q|) - h / 10 ^ k| ≤ 1 / (2 * 10 ^ k) ∧ (|(|q|) - h / 10 ^ k| = 1 / (2 * 10 ^ k) → Even h) ∧
  decimal (10 ^ k + h % 10 ^ k) = '1' :: f ∧ t = (if q < 0 then ['-'] else []) ++ decimal (h / 10 ^ k) ++ '.' :: f

/-- What a field shows. -/
inductive Field where
  | text (t : Text)
  | number (k : Nat) (q : ℚ)

/-- The field has this text. -/
def Field.Shows : Field → Text → Prop
  | .text t, x => x = t
  | .number k q, x => Decimals k q x

/-- A cell: a field at the left or at the right of some columns. -/
inductive Cell where
  | left (w : Nat) (f : Field)
  | right (w : Nat) (f : Field)

/-- The cell has this text: the field and spaces. -/
def Cell.Shows : Cell → Text → Prop
  | .left w f, t => ∃ x, f.Shows x ∧ t = x ++ List.replicate (w - x.length) ' '
  | .right w f, t => ∃ x, f.Shows x ∧ t = List.replicate (w - x.length) ' ' ++ x

/-- Lines of a document. -/
inductive Desc where
  | title (t : Text)
  | blank
  | rule (c : Char) (n : Nat)
  | row (cells : List Cell)

/-- The line is as described. -/
def Desc.Shows : Desc → Text → Prop
  | .title t, l => l = t
  | .blank, l => l = []
  | .rule c n, l => l = List.replicate n c
  | .row cs, l => ∃ ts, List.Forall₂ Cell.Shows cs ts ∧ l = ts.flatten

/-- The text consists of these lines. -/
def Document (ds : List Desc) (t : Text) : Prop := ∃ ls, List.Forall₂ Desc.Shows ds ls ∧ t = ended ls

/-- A row of a table: a label in `a` columns and three values in 14 columns each. -/
def row3 (a : Nat) (label : Text) (x y z : Field) : Desc :=
  .row [.left a (.text label), .right 14 x, .right 14 y, .right 14 z]

/-- A row with three counts. -/
def counts3 (a : Nat) (label : Text) (c : Count → Nat) : Desc :=
  row3 a label (.text (decimal (c .true))) (.text (decimal (c .pred))) (.text (decimal (c .common)))

/-- A row with three numbers, one for each count. -/
def numbers3 (a : Nat) (label : Text) (q : Count → ℚ) : Desc :=
  row3 a label (.number 2 (q .true)) (.number 2 (q .pred)) (.number 2 (q .common))

/-- A row with precision, recall and F score as percentages. -/
def percents3 (a : Nat) (label : Text) (q : Measure → ℚ) : Desc :=
  row3 a label (.number 2 (q .prec * 100)) (.number 2 (q .recall * 100)) (.number 2 (q .f * 100))

/-- A title between rules. -/
def heading (t : String) : List Desc := [.rule '=' 80, .title t.toList, .rule '=' 80, .blank]

/-- The titles of the counts and of the measures. -/
def countTitles (a : Nat) (label : String) : Desc :=
  row3 a label.toList (.text "True:".toList) (.text "Pred:".toList) (.text "Common:".toList)
def measureTitles (a : Nat) (label : String) : Desc :=
  row3 a label.toList (.text "Prec:".toList) (.text "Rec:".toList) (.text "F:".toList)

/-- The table of one relation: the counts of the corpora with their statistics, and the measures with theirs. -/
def tableDoc (sqrt : ℚ → ℚ) (a : Nat) (title : Text) (names : List Text) (counts : List Counts) (s : TableStats) : List Desc :=
  (if title = [] then [] else [.title title, .blank]) ++
  [countTitles a "Name:", .rule '-' (a + 42)] ++ List.zipWith (counts3 a) names counts ++ [.rule '-' (a + 42),
    counts3 a "Sum:".toList s.sum, numbers3 a "Mean:".toList s.countMean, numbers3 a "Var:".toList s.countVar,
    numbers3 a "Sd:".toList fun c => sqrt (s.countVar c), .blank, .blank] ++
  [measureTitles a "Name:", .rule '-' (a + 42)] ++ List.zipWith (percents3 a) names s.rows ++ [.rule '-' (a + 42),
    percents3 a "Macro Mean:".toList s.macroMean, percents3 a "Macro Var:".toList s.macroVar,
    percents3 a "Macro Sd:".toList fun m => sqrt (s.macroVar m),
    percents3 a "Micro Mean:".toList s.microMean, percents3 a "Micro Var:".toList s.microVar,
    percents3 a "Micro Sd:".toList fun m => sqrt (s.microVar m), .blank, .blank]

/-- The summary over the relations. -/
def overallDoc (rels : List String) (stats : String → TableStats) (s : EvalStats) : List Desc :=
  heading "Alignment over all relations" ++ [countTitles 14 "Relation:", .rule '-' 56] ++
  rels.map (fun r => counts3 14 r.toList (stats r).sum) ++
  [.rule '-' 56, counts3 14 "Sum:".toList s.sum, .blank, .blank, measureTitles 14 "Relation:", .rule '-' 56] ++
  rels.map (fun r => percents3 14 r.toList (stats r).microMean) ++
  [.rule '-' 56, percents3 14 "Macro Mean:".toList s.macroMean, percents3 14 "Micro Mean:".toList s.microMean, .blank, .blank]

/-- A whole evaluation: regardless of relations, for each relation, and over all relations. -/
def evalDoc (sqrt : ℚ → ℚ) (a : Nat) (names : List Text) (rels : List String) (counts : String → List Counts)
    (stats : String → TableStats) (s : EvalStats) : List Desc :=
  heading "Alignment only (regardlless of relation)" ++ tableDoc sqrt a [] names (counts anyRel) (stats anyRel) ++
  heading "Alignment per relation" ++
  (rels.map fun r => tableDoc sqrt a (r.toList.map Char.toUpper) names (counts r) (stats r)).flatten ++
  overallDoc rels stats s

/-- A percentage, or a number with four decimals. -/
def score (percent : Bool) (q : ℚ) : Field := if percent then .number 2 (q * 100) else .number 4 q

/-- A line of an agreement table: a label with a colon, and fields, all at the right of 12 columns. -/
def row12 (label : Text) (fields : List Field) : Desc :=
  .row (.right 12 (.text (label ++ [':'])) :: fields.map (.right 12))

/-- An agreement table: a row for each annotator with the scores against the others, nothing against himself, and the
means and standard deviations of the columns and of all scores. -/
def matrixDoc (sqrt : ℚ → ℚ) (percent : Bool) (title : Text) (labels : List String) (v : String → String → ℚ)
    (mean var : String → ℚ) (meanAll varAll : ℚ) : List Desc :=
  (if title = [] then [] else [.title title, .blank]) ++
  [.row (.right 12 (.text []) :: (labels ++ ["overall"]).map fun l => .right 12 (.text (l.toList ++ [':']))),
    .rule '-' ((labels.length + 2) * 12)] ++
  (labels.map fun r => row12 r.toList (labels.map fun c => if r = c then .text [] else score percent (v r c))) ++
  [.rule '-' ((labels.length + 2) * 12),
    row12 "mean".toList ((labels.map fun c => score percent (mean c)) ++ [score percent meanAll]),
    row12 "SD".toList ((labels.map fun c => score percent (sqrt (var c))) ++ [score percent (sqrt varAll)]), .blank, .blank]

/-- The agreement tables of relations and measures. -/
def agreementDoc (sqrt : ℚ → ℚ) (annotators labels : List String) (rels : List String) (ks : List Measure)
    (v : String → Measure → String → String → ℚ) : List Desc :=
  (rels.map fun r => heading ("Agreement on relation " ++ r) ++ (ks.map fun k =>
    matrixDoc sqrt true (match k with | .prec => "PREC".toList | .recall => "REC".toList | .f => "F".toList) labels (v r k)
      (fun p => meanOf (column annotators (v r k) p))
      (fun p => varOf (column annotators (v r k) p) (meanOf (column annotators (v r k) p)))
      (meanOf (offDiagonal annotators (v r k)))
      (varOf (offDiagonal annotators (v r k)) (meanOf (offDiagonal annotators (v r k))))).flatten).flatten

end Verif.Spec.EvalPrint
