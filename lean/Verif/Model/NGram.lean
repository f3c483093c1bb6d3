import Verif.Py

/-! Model of lib/daeso/string/ngram.py and lib/daeso/string/sgram.py -/
namespace Verif.NGram
open Verif

variable {α : Type}

/-- ngram.py:77-88 `pad` (the three branches differ only in the sequence type). -/
def pad (tokens : List α) (padSize : Nat) (padString : α) : List α :=
  List.replicate padSize padString ++ tokens ++ List.replicate padSize padString

/-- Python slice `l[i:j]` for non-negative bounds. -/
def slice (l : List α) (i j : Nat) : List α := (l.drop i).take (j - i)

/-- ngram.py:29-37 `n_gram_slices`, for `n ≥ 0` (`range` of a negative number is empty, as is
`List.range` of the truncated difference). -/
def nGramSlices (tokens : List α) (n padSize : Nat) (padString : α) : List (List α) :=
  let padded := pad tokens padSize padString
  (List.range (padded.length + 1 - n)).map fun i => slice padded i (i + n)

/-- ngram.py:40-51 `n_gram_strings` (`String.intercalate` is Python's `separator.join`). -/
def nGramStrings (tokens : List String) (n padSize : Nat) (padString sep : String) : List String :=
  let padded := pad tokens padSize padString
  (List.range (padded.length + 1 - n)).map fun i => sep.intercalate (slice padded i (i + n))

/-- ngram.py:54-74 `n_gram_slices_range`; `padSizes = none` is Python's `None`.
(`n-1` for `n = 0` is `-1` in Python, and `-1 * [x]` is empty like `0 * [x]`.) -/
def nGramSlicesRange (tokens : List α) (nRange : List Nat) (doPad : Bool)
    (padSizes : Option (List Nat)) (padString : α) : Py (Py.Dict Nat (List (List α))) := do
  let sizes ← if doPad then
      match padSizes with
      | some (p :: ps) =>
        if nRange.length = (p :: ps).length then .ok (p :: ps) else .error .assertionError
      | _ => .ok (nRange.map (· - 1))
    else .ok (List.replicate nRange.length 0)
  .ok ((nRange.zip sizes).foldl
    (fun d np => d.set np.1 (nGramSlices tokens np.1 np.2 padString)) Py.Dict.empty)

/-- sgram.py:31-44 `skip_bigram_slices`: `tokens[1:2 + distance_limit]` for a non-negative limit. The
default `sys.maxint` exceeds every list length. -/
def skipBigramSlices (limit : Nat) : List α → List (α × α)
  | [] => []
  | t :: ts => (slice (t :: ts) 1 (2 + limit)).map (fun x => (t, x)) ++ skipBigramSlices limit ts

/-- sgram.py:47-56 `padded_skip_bigram_slices`. -/
def paddedSkipBigramSlices (limit : Nat) (tokens : List α) (padString : α) : List (α × α) :=
  skipBigramSlices limit (pad tokens 1 padString)

end Verif.NGram
