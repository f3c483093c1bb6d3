import Verif.Model.NGram
import Verif.Model.Lcs
import Verif.PyNum
import Mathlib.Data.Finset.Card
import Mathlib.Data.Finset.Dedup

/-! Model of lib/daeso/string/rouge.py (floats exact, in ℚ). -/
namespace Verif.Rouge
open Verif Verif.NGram

variable {α : Type} [DecidableEq α]

/-- rouge.py:75-82 `count_match`. -/
def countMatch (cand refs : List (List α)) : Nat := (cand.filter (fun g => decide (g ∈ refs))).length

/-- rouge.py:61-72 `rouge_ngram`. -/
def rougeNgram (cand refs : List (List α)) : Py ℚ :=
  Py.catchZeroDiv 0 (Py.div (countMatch cand refs) (refs.length : ℚ))

/-- rouge.py:44-58 `rouge_n`.  `n_gram_slices` is called without padding; `pad` is the (irrelevant)
default pad string. -/
def rougeN (pad : α) (cand : List α) (refs : List (List α)) (n : Nat) : Py ℚ :=
  let candNgrams := nGramSlices cand n 0 pad
  let refNgrams := refs.foldl (fun acc rt => acc ++ nGramSlices rt n 0 pad) []
  rougeNgram candNgrams refNgrams

/-- rouge.py:101-105 and 141-145: the F-measure with `except ZeroDivisionError: return 0`. -/
def fMeasure (beta precision recall : ℚ) : Py ℚ :=
  Py.catchZeroDiv 0 (Py.div ((1 + beta ^ 2) * precision * recall) (beta ^ 2 * precision + recall))

/-- rouge.py:90-105 `rouge_l`; the divisions by the lengths are outside the `try`. -/
def rougeL (fuel : Nat) (cand ref : List α) (beta : ℚ) : Py ℚ := do
  let c ← Lcs.lcs fuel cand ref
  let recall ← Py.div c.length (ref.length : ℚ)
  let precision ← Py.div c.length (cand.length : ℚ)
  fMeasure beta precision recall

/-- rouge.py:125-145 `rouge_skip_bigram`. -/
def rougeSkipBigram (b1 b2 : List (α × α)) (beta : ℚ) : Py ℚ := do
  let m := (b1.toFinset ∩ b2.toFinset).card
  let recall ← Py.div m (b1.length : ℚ)
  let precision ← Py.div m (b2.length : ℚ)
  fMeasure beta precision recall

/-- rouge.py:112-122 `rouge_s`. -/
def rougeS (t1 t2 : List α) (limit : Nat) (beta : ℚ) : Py ℚ :=
  rougeSkipBigram (skipBigramSlices limit t1) (skipBigramSlices limit t2) beta

/-- rouge.py:152-165 `rouge_su`. -/
def rougeSU (t1 t2 : List α) (limit : Nat) (beta : ℚ) (marker : α) : Py ℚ :=
  rougeS (marker :: t1) (marker :: t2) limit beta

end Verif.Rouge
