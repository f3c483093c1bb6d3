import Verif.Py

/-! Model of lib/daeso/string/levenshtein.py -/
namespace Verif.Levenshtein
open Verif

variable {α : Type} [DecidableEq α]

/-- levenshtein.py:46-50, body of the inner loop (`j` ranges over 1..n so `j - 1`, `i - 1` are
never negative). -/
def cell (s1 s2 : List α) (i : Nat) (previous : List Nat) (j : Nat) (current : List Nat) :
    Py (List Nat) := do
  let add := (← Py.get previous j) + 1
  let delete := (← Py.get current (j - 1)) + 1
  let change ← Py.get previous (j - 1)
  let c1 ← Py.get s1 (j - 1)
  let c2 ← Py.get s2 (i - 1)
  let change := if c1 ≠ c2 then change + 1 else change
  Py.set current j (min (min add delete) change)

/-- levenshtein.py:44-50, body of the outer loop: `previous, current = current, [i] + [0] * n`
and the inner loop over `j in range(1, n + 1)`. -/
def row (s1 s2 : List α) (n i : Nat) (current : List Nat) : Py (List Nat) :=
  let previous := current
  Py.forRange 1 (n + 1) (i :: List.replicate n 0) (cell s1 s2 i previous)

/-- levenshtein.py:41-52: after the swap, `n = len(s1)`, `m = len(s2)`. -/
def table (s1 s2 : List α) : Py Nat := do
  let n := s1.length
  let m := s2.length
  let current ← Py.forRange 1 (m + 1) (List.range (n + 1)) (row s1 s2 n)
  Py.get current n

/-- levenshtein.py:29-52 `levenshtein` (the swap on line 36-39 makes `n ≤ m`). -/
def levenshtein (s1 s2 : List α) : Py Nat :=
  if s1.length > s2.length then table s2 s1 else table s1 s2

/-- levenshtein.py:55-68 `normalized_levenshtein`.  Simplification: the float quotient is exact (ℚ). -/
def normalized (s1 s2 : List α) : Py Rat := do
  let d ← levenshtein s1 s2
  let m := max s1.length s2.length
  if m = 0 then return 0   -- except ZeroDivisionError
  else return (d : Rat) / (m : Rat)

end Verif.Levenshtein
