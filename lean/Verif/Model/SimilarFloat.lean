import Verif.Model.Similar
import Verif.Model.Rouge
import Verif.Model.Levenshtein
import Verif.Model.Lcs

/-! Model of lib/daeso/string/similar.py:35-243, levenshtein.py:55-68, lcs.py:87-95 and rouge.py:44-165 with rounded
arithmetic: a conversion of an integer to a float, a sum, a product and a quotient of floats are rounded by a function `fl`,
and `sq` is math.sqrt.  Overflow to inf (OverflowError) and underflow are not modelled. -/
namespace Verif.Measure
open Verif

/-- Division of two floats. -/
def divFl (fl : ℚ → ℚ) (a b : ℚ) : Py ℚ := if b = 0 then .error .zeroDivision else .ok (fl (a / b))

/-- `float(a) / b`, `a / float(b)` for integers: both are converted. -/
def ratioFl (fl : ℚ → ℚ) (a b : Nat) : Py ℚ := divFl fl (fl a) (fl b)

/-- `float(a) / math.sqrt(b)` for integers. -/
def rootRatioFl (fl sq : ℚ → ℚ) (a b : Nat) : Py ℚ := divFl fl (fl a) (sq (fl b))

section
variable {α : Type} [DecidableEq α]
open Verif.Similar

/-- similar.py:56-67 `sym_token_match`. -/
def symTokenMatchFl (fl : ℚ → ℚ) (seq1 seq2 : List α) : Py ℚ :=
  ratioFl fl (tokenMatch seq1 seq2 + tokenMatch seq2 seq1) 2

/-- similar.py:70-85 `cosine`. -/
def cosineFl (fl sq : ℚ → ℚ) (seq1 seq2 : List α) : Py ℚ :=
  Py.catchZeroDiv 0 (rootRatioFl fl sq (inter seq1 seq2).card (seq1.length * seq2.length))

/-- similar.py:88-103 `tanimoto`. The integer `len(seq1) + len(seq2) - len(intersection)` is never negative. -/
def tanimotoFl (fl : ℚ → ℚ) (seq1 seq2 : List α) : Py ℚ :=
  Py.catchZeroDiv 0 (ratioFl fl (inter seq1 seq2).card (seq1.length + seq2.length - (inter seq1 seq2).card))

/-- similar.py:106-121 `dice`. -/
def diceFl (fl : ℚ → ℚ) (seq1 seq2 : List α) : Py ℚ :=
  Py.catchZeroDiv 0 (ratioFl fl (2 * (inter seq1 seq2).card) (seq1.length + seq2.length))

/-- similar.py:124-140 `jaccard`. -/
def jaccardFl (fl : ℚ → ℚ) (seq1 seq2 : List α) : Py ℚ :=
  Py.catchZeroDiv 0 (ratioFl fl (inter seq1 seq2).card (seq1.toFinset ∪ seq2.toFinset).card)

/-- similar.py:143-155 `overlap_min`. -/
def overlapMinFl (fl : ℚ → ℚ) (seq1 seq2 : List α) : Py ℚ :=
  Py.catchZeroDiv 0 (ratioFl fl (inter seq1 seq2).card (min seq1.length seq2.length))

/-- similar.py:158-170 `overlap_max`. -/
def overlapMaxFl (fl : ℚ → ℚ) (seq1 seq2 : List α) : Py ℚ :=
  Py.catchZeroDiv 0 (ratioFl fl (inter seq1 seq2).card (max seq1.length seq2.length))

/-- similar.py:180-199 `generalized_cosine`. -/
def genCosineFl (fl sq : ℚ → ℚ) : List (List α) → Py ℚ
  | [] => .ok 0
  | s :: rest =>
    let r := accumulate (· * ·) s rest
    Py.catchZeroDiv 0 (rootRatioFl fl sq r.2.card r.1)

/-- similar.py:202-222 `generalized_dice`. -/
def genDiceFl (fl : ℚ → ℚ) : List (List α) → Py ℚ
  | [] => .ok 0
  | s :: rest =>
    let r := accumulate (· + ·) s rest
    Py.catchZeroDiv 0 (ratioFl fl ((s :: rest).length * r.2.card) r.1)

/-- similar.py:224-243 `generalized_jaccard`. -/
def genJaccardFl (fl : ℚ → ℚ) : List (List α) → Py ℚ
  | [] => .ok 0
  | s :: rest =>
    let r := rest.foldl (fun (acc : Finset α × Finset α) seq =>
      (acc.1 ∪ seq.toFinset, acc.2 ∩ seq.toFinset)) (s.toFinset, s.toFinset)
    Py.catchZeroDiv 0 (ratioFl fl r.2.card r.1.card)

/-- levenshtein.py:55-68 `normalized_levenshtein`. -/
def normLevenshteinFl (fl : ℚ → ℚ) (s1 s2 : List α) : Py ℚ := do
  let d ← Levenshtein.levenshtein s1 s2
  Py.catchZeroDiv 0 (ratioFl fl d (max s1.length s2.length))

/-- lcs.py:87-95 `normalized_lcs`; `fuel` bounds the loops of the traceback. -/
def normLcsFl (fl sq : ℚ → ℚ) (fuel : Nat) (seq1 seq2 : List α) : Py ℚ := do
  let c ← Lcs.lcs fuel seq1 seq2
  Py.catchZeroDiv 0 (rootRatioFl fl sq c.length (seq1.length * seq2.length))

/-- rouge.py:61-72 `rouge_ngram`. -/
def rougeNgramFl (fl : ℚ → ℚ) (cand refs : List (List α)) : Py ℚ :=
  Py.catchZeroDiv 0 (ratioFl fl (Rouge.countMatch cand refs) refs.length)

/-- rouge.py:44-58 `rouge_n`. -/
def rougeNFl (fl : ℚ → ℚ) (pad : α) (cand : List α) (refs : List (List α)) (n : Nat) : Py ℚ :=
  let candNgrams := NGram.nGramSlices cand n 0 pad
  let refNgrams := refs.foldl (fun acc rt => acc ++ NGram.nGramSlices rt n 0 pad) []
  rougeNgramFl fl candNgrams refNgrams

/-- rouge.py:101-105 and 141-145, the F-measure: `((1 + beta ** 2) * precision * recall) / (beta ** 2 * precision +
recall)`. -/
def fMeasureFl (fl : ℚ → ℚ) (beta precision recall : ℚ) : Py ℚ :=
  let b := fl (beta ^ 2)
  Py.catchZeroDiv 0 (divFl fl (fl (fl (fl (1 + b) * precision) * recall)) (fl (fl (b * precision) + recall)))

/-- rouge.py:90-105 `rouge_l`; the divisions by the lengths are outside the `try`. -/
def rougeLFl (fl : ℚ → ℚ) (fuel : Nat) (cand ref : List α) (beta : ℚ) : Py ℚ := do
  let c ← Lcs.lcs fuel cand ref
  let recall ← ratioFl fl c.length ref.length
  let precision ← ratioFl fl c.length cand.length
  fMeasureFl fl beta precision recall

/-- rouge.py:125-145 `rouge_skip_bigram`. -/
def rougeSkipBigramFl (fl : ℚ → ℚ) (b1 b2 : List (α × α)) (beta : ℚ) : Py ℚ := do
  let m := (b1.toFinset ∩ b2.toFinset).card
  let recall ← ratioFl fl m b1.length
  let precision ← ratioFl fl m b2.length
  fMeasureFl fl beta precision recall

/-- rouge.py:112-122 `rouge_s`. -/
def rougeSFl (fl : ℚ → ℚ) (t1 t2 : List α) (limit : Nat) (beta : ℚ) : Py ℚ :=
  rougeSkipBigramFl fl (NGram.skipBigramSlices limit t1) (NGram.skipBigramSlices limit t2) beta

/-- rouge.py:152-165 `rouge_su`. -/
def rougeSUFl (fl : ℚ → ℚ) (t1 t2 : List α) (limit : Nat) (beta : ℚ) (marker : α) : Py ℚ :=
  rougeSFl fl (marker :: t1) (marker :: t2) limit beta

end
end Verif.Measure
