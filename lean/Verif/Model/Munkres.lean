import Verif.Py
import Mathlib.Data.Rat.Defs
import Mathlib.Algebra.Order.Ring.Unbundled.Rat
import Mathlib.Order.Defs.LinearOrder

/-! Model of lib/daeso/thirdparty/munkres.py:319-725 (class Munkres) and `make_cost_matrix`.
Costs are rationals (Python integers, or floats without rounding).  The n×n matrices `C` and `marked` and
the vectors `row_covered`, `col_covered` are represented by their entry functions: every index the code
uses comes from `range(n)` or from a search over `range(n)`; only the accesses to `path` can be out of
range and are checked. -/
namespace Verif.Munkres
open Verif

/-- `sys.maxint` on a 64-bit CPython 2. -/
def maxint : ℚ := 9223372036854775807

/-- The fields of a Munkres object during `compute` (munkres.py:325-334, 404-413). -/
structure St where
  n : Nat
  C : Nat → Nat → ℚ
  rowC : Nat → Bool
  colC : Nat → Bool
  mark : Nat → Nat → Nat
  z : Nat × Nat

/-- `m[i][j] = v`. -/
def upd2 {α : Type} (m : Nat → Nat → α) (i j : Nat) (v : α) : Nat → Nat → α :=
  fun i' j' => if i' = i ∧ j' = j then v else m i' j'

/-- `v[i] = b`. -/
def upd (m : Nat → Bool) (i : Nat) (b : Bool) : Nat → Bool := fun i' => if i' = i then b else m i'

/-- The index pairs of `for i in range(r): for j in range(c)`. -/
def cells (r c : Nat) : List (Nat × Nat) := (List.range r).flatMap fun i => (List.range c).map fun j => (i, j)

/-- munkres.py:347-381 `pad_matrix` (the `pad_value` parameter is ignored by the code). -/
def padMatrix (m : List (List ℚ)) : List (List ℚ) :=
  let maxColumns := m.foldl (fun a row => max a row.length) 0
  let total := max maxColumns m.length
  let rows := m.map fun row => row ++ List.replicate (total - row.length) 0
  rows ++ List.replicate (total - rows.length) (List.replicate total 0)

/-- `m[i][j]` for an index in range (0 outside, which is never used). -/
def entry (m : List (List ℚ)) (i j : Nat) : ℚ := (m.getD i []).getD j 0

/-- munkres.py:460 `min(self.C[i])`. -/
def rowMin (s : St) (i : Nat) : ℚ := (List.range s.n).foldl (fun m j => min m (s.C i j)) (s.C i 0)

/-- munkres.py:452-466 `__step1`. -/
def step1 (s : St) : St := { s with C := fun i j => s.C i j - rowMin s i }

/-- munkres.py:675-679 `__clear_covers`. -/
def clearCovers (s : St) : St := { s with rowC := fun _ => false, colC := fun _ => false }

/-- munkres.py:477-482, body of the double loop of `__step2`. -/
def step2Body (s : St) (p : Nat × Nat) : St :=
  if s.C p.1 p.2 = 0 ∧ s.colC p.2 = false ∧ s.rowC p.1 = false then
    { s with mark := upd2 s.mark p.1 p.2 1, colC := upd s.colC p.2 true, rowC := upd s.rowC p.1 true }
  else s

/-- munkres.py:468-485 `__step2`. -/
def step2 (s : St) : St := clearCovers ((cells s.n s.n).foldl step2Body s)

/-- munkres.py:497-499, body of the double loop of `__step3`. -/
def step3Body (a : St × Nat) (p : Nat × Nat) : St × Nat :=
  if a.1.mark p.1 p.2 = 1 then ({ a.1 with colC := upd a.1.colC p.2 true }, a.2 + 1) else a

/-- munkres.py:487-507 `__step3`: the new state and the next step. -/
def step3 (s : St) : St × Nat :=
  let a := (cells s.n s.n).foldl step3Body (s, 0)
  (a.1, if a.2 ≥ s.n then 7 else 4)

/-- munkres.py:603-627 `__find_a_zero`: the first row with an uncovered zero, and in it the last such
column (the inner loop does not stop at a hit). `none` is (-1, -1). -/
def findAZero (s : St) : Option (Nat × Nat) :=
  (List.range s.n).findSome? fun i =>
    ((List.range s.n).filter fun j =>
      s.C i j = 0 && !s.rowC i && !s.colC j).getLast?.map fun j => (i, j)

/-- munkres.py:629-640 `__find_star_in_row`; `none` is -1. -/
def findStarInRow (s : St) (row : Nat) : Option Nat := (List.range s.n).find? fun j => s.mark row j = 1

/-- munkres.py:642-653 `__find_star_in_col`; `none` is -1. -/
def findStarInCol (s : St) (col : Nat) : Option Nat := (List.range s.n).find? fun i => s.mark i col = 1

/-- munkres.py:655-666 `__find_prime_in_row`; `none` is -1. -/
def findPrimeInRow (s : St) (row : Nat) : Option Nat := (List.range s.n).find? fun j => s.mark row j = 2

/-- munkres.py:521-539 `__step4`, the loop, with a budget of tests. -/
def step4Loop : Nat → St → Py (St × Nat)
  | 0, _ => .error .fuel
  | k + 1, s =>
    match findAZero s with
    | none => .ok (s, 6)
    | some (r, c) =>
      let s1 := { s with mark := upd2 s.mark r c 2 }
      match findStarInRow s1 r with
      | some c' => step4Loop k { s1 with rowC := upd s1.rowC r true, colC := upd s1.colC c' false }
      | none => .ok ({ s1 with z := (r, c) }, 5)

/-- munkres.py:508-539 `__step4`.  `n + 1` tests are shown to suffice. -/
def step4 (s : St) : Py (St × Nat) := step4Loop (s.n + 1) s

/-- munkres.py:557-570, the loop of `__step5` after `path[count]` was set, the last entry being in
column `c`; `room` is the number of rows of `path` still free.  Writing beyond the last row is an
IndexError.  A missing prime would give the column -1; it is modelled as an error (and shown not to
happen). -/
def buildPath (s : St) : (room : Nat) → (c : Nat) → Py (List (Nat × Nat))
  | 0, c => match findStarInCol s c with
    | some _ => .error .indexError
    | none => .ok []
  | 1, c => match findStarInCol s c with
    | some _ => .error .indexError
    | none => .ok []
  | room + 2, c => match findStarInCol s c with
    | none => .ok []
    | some r1 => match findPrimeInRow s r1 with
      | none => .error .valueError
      | some c1 => match buildPath s room c1 with
        | .ok l => .ok ((r1, c) :: (r1, c1) :: l)
        | .error e => .error e

/-- munkres.py:669-673, body of `__convert_path`. -/
def flip (mark : Nat → Nat → Nat) (p : Nat × Nat) : Nat → Nat → Nat :=
  upd2 mark p.1 p.2 (if mark p.1 p.2 = 1 then 0 else 1)

/-- munkres.py:668-673 `__convert_path`. -/
def convertPath (s : St) (path : List (Nat × Nat)) : St := { s with mark := path.foldl flip s.mark }

/-- munkres.py:681-686 `__erase_primes`. -/
def erasePrimes (s : St) : St := { s with mark := fun i j => if s.mark i j = 2 then 0 else s.mark i j }

/-- munkres.py:541-575 `__step5`; `path` has 2n rows. -/
def step5 (s : St) : Py St :=
  if 2 * s.n = 0 then .error .indexError
  else match buildPath s (2 * s.n - 1) s.z.2 with
    | .ok l => .ok (erasePrimes (clearCovers (convertPath s (s.z :: l))))
    | .error e => .error e

/-- munkres.py:593-601 `__find_smallest`. -/
def findSmallest (s : St) : ℚ :=
  (cells s.n s.n).foldl (fun m p =>
    if s.rowC p.1 = false ∧ s.colC p.2 = false then (if m > s.C p.1 p.2 then s.C p.1 p.2 else m) else m) maxint

/-- munkres.py:577-591 `__step6`. -/
def step6 (s : St) : St :=
  let m := findSmallest s
  { s with C := fun i j =>
      let x := if s.rowC i then s.C i j + m else s.C i j
      if s.colC j = false then x - m else x }

/-- munkres.py:418-430: the dispatch on the step number. -/
def runStep (a : St × Nat) : Py (St × Nat) :=
  match a.2 with
  | 1 => .ok (step1 a.1, 2)
  | 2 => .ok (step2 a.1, 3)
  | 3 => .ok (step3 a.1)
  | 4 => step4 a.1
  | 5 => match step5 a.1 with
    | .ok s => .ok (s, 3)
    | .error e => .error e
  | 6 => .ok (step6 a.1, 4)
  | _ => .ok a

/-- munkres.py:404-416: the state in which the loop starts. -/
def initSt (P : List (List ℚ)) : St :=
  ⟨P.length, entry P, fun _ => false, fun _ => false, fun _ _ => 0, (0, 0)⟩

/-- munkres.py:383-439 `compute`; an unknown step number (7) ends the loop. -/
def compute (fuel : Nat) (m : List (List ℚ)) : Py (List (Nat × Nat)) :=
  match m with
  | [] => .error .indexError
  | row0 :: _ =>
    match Py.whileLoop (fun a : St × Nat => .ok (decide (1 ≤ a.2 ∧ a.2 ≤ 6))) runStep fuel
        (initSt (padMatrix m), 1) with
    | .ok a => .ok ((cells m.length row0.length).filter fun p => a.1.mark p.1 p.2 = 1)
    | .error e => .error e

/-- munkres.py:692-725 `make_cost_matrix`. -/
def makeCostMatrix {α β : Type} (m : List (List α)) (f : α → β) : List (List β) := m.map fun row => row.map f

end Verif.Munkres
