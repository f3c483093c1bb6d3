import Verif.PyNum

/-! Model of lib/daeso/string/median.py:27-53 `set_median_string` -/
namespace Verif.Median
open Verif

variable {α : Type}

/-- median.py:35-38, body of the inner loop: `sod[i] += d; sod[j] += d`. -/
def addDist (strings : List α) (dist : α → α → ℚ) (i j : Nat) (sod : List ℚ) : Py (List ℚ) := do
  let x ← Py.get strings i
  let y ← Py.get strings j
  let d := dist x y
  let a ← Py.get sod i
  let sod ← Py.set sod i (a + d)
  let b ← Py.get sod j
  Py.set sod j (b + d)

/-- median.py:32-38: the sums of distances. -/
def sods (strings : List α) (dist : α → α → ℚ) : Py (List ℚ) :=
  Py.forRange 0 strings.length (List.replicate strings.length 0) fun i sod =>
    Py.forRange 0 i sod fun j sod => addDist strings dist i j sod

/-- median.py:48-51, loop body on `(i, min_sum)`. -/
def argminStep (sod : List ℚ) (j : Nat) (s : Nat × ℚ) : Py (Nat × ℚ) := do
  let x ← Py.get sod j
  if x < s.2 then .ok (j, x) else .ok s

/-- median.py:45-51: index of the first minimum. -/
def argmin (sod : List ℚ) : Py Nat := do
  let m ← Py.get sod 0
  let r ← Py.forRange 1 sod.length (0, m) (argminStep sod)
  .ok r.1

/-- median.py:27-53 `set_median_string`.  Simplification: distances are exact rationals. -/
def median (strings : List α) (dist : α → α → ℚ) : Py α := do
  let sod ← sods strings dist
  let i ← argmin sod
  Py.get strings i

end Verif.Median
