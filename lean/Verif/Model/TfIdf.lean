import Verif.PyDict
import Verif.PyNum
import Mathlib.Analysis.SpecialFunctions.Log.Basic

/-! Model of lib/daeso/string/tf_idf.py:42-229. Floats are exact reals. -/
namespace Verif.TfIdf
open Verif

variable {τ : Type} [LinearOrder τ]

/-- `try: d[t] += 1 / except KeyError: d[t] = 1` (tf_idf.py:195-198, 219-222). -/
def incr (d : AD τ Nat) (t : τ) : AD τ Nat :=
  match d.get? t with
  | some c => d.set t (c + 1)
  | none => d.set t 1

/-- tf_idf.py:216-222: inner loop over the terms of one document; state: `terms`, `docs_term_freq`. -/
def docLoop (doc : List τ) (terms : AD τ Unit) : AD τ Unit × AD τ Nat :=
  doc.foldl (fun s t => (s.1.set t (), incr s.2 t)) (terms, [])

/-- tf_idf.py:203-229 `calculate_term_frequencies`. -/
def termFrequencies (docs : List (List τ)) : List τ × List (AD τ Nat) :=
  let s := docs.foldl (fun (s : AD τ Unit × List (AD τ Nat)) doc =>
    let r := docLoop doc s.1
    (r.1, s.2 ++ [r.2])) ([], [])
  (s.1.keys.mergeSort (fun a b => decide (a ≤ b)), s.2)

/-- tf_idf.py:185-200 `calculate_document_frequencies`. -/
def documentFrequencies (tfs : List (AD τ Nat)) : AD τ Nat :=
  tfs.foldl (fun d tf => tf.keys.foldl incr d) []

open Classical in
/-- `math.log`: ValueError for arguments that are not positive. -/
noncomputable def log (x : ℝ) : Py ℝ := if x ≤ 0 then .error .valueError else .ok (Real.log x)

/-- tf_idf.py:87-93, 154-160: `norm`. -/
noncomputable def normOf (docs : List (List τ)) (normalized : Bool) : Py ℝ :=
  if normalized then log docs.length else .ok 1

/-- tf_idf.py:101-102, 177: `math.log(docs_count / doc_freq[term]) / norm`. -/
noncomputable def idfWeight (n : ℝ) (df : AD τ Nat) (nrm : ℝ) (t : τ) : Py ℝ := do
  let f ← df.get t
  let q ← Py.divR n f
  let l ← log q
  Py.divR l nrm

/-- tf_idf.py:42-108 `idf`. -/
noncomputable def idf (docs : List (List τ)) (normalized : Bool) : Py (List τ × List (List ℝ)) := do
  let (terms, tfs) := termFrequencies docs
  let df := documentFrequencies tfs
  let nrm ← normOf docs normalized
  let ws ← docs.mapM fun _ => terms.mapM fun t => idfWeight docs.length df nrm t
  .ok (terms, ws)

/-- tf_idf.py:167-174: `tf`. -/
noncomputable def tf (indicator : Bool) (doc : List τ) (freq : AD τ Nat) (t : τ) : Py ℝ :=
  if indicator then .ok (if t ∈ doc then 1 else 0)
  else Py.catchZeroDiv 0 (Py.divR ((freq.get? t).getD 0 : Nat) (doc.length : Nat))

/-- tf_idf.py:110-182 `tf_idf`. -/
noncomputable def tfIdf (docs : List (List τ)) (normalized indicator : Bool) :
    Py (List τ × List (List ℝ)) := do
  let (terms, tfs) := termFrequencies docs
  let df := documentFrequencies tfs
  let nrm ← normOf docs normalized
  let ws ← (docs.zip tfs).mapM fun p => terms.mapM fun t => do
    let f ← tf indicator p.1 p.2 t
    let w ← idfWeight docs.length df nrm t
    .ok (f * w)
  .ok (terms, ws)

end Verif.TfIdf
