import Verif.Model.Munkres

/-! Model of lib/daeso/thirdparty/munkres.py:383-439 (compute), 452-466 (__step1) and 577-591 (__step6) with rounded
arithmetic: the sum and the difference of two costs are rounded by a function `fl`.  With `fl` the identity this is
Model/Munkres (integers); with the rounding of floats (without overflow to inf and underflow) it is a matrix of floats.
The other steps do not calculate with costs and are those of Model/Munkres; comparisons are exact in Python, also between
a float and `sys.maxint`.  Matrices that mix integers and floats are not modelled (padding with the integer 0 is, as 0 is
a float too). -/
namespace Verif.Munkres
open Verif

/-- munkres.py:452-466 `__step1`. -/
def step1Fl (fl : ℚ → ℚ) (s : St) : St := { s with C := fun i j => fl (s.C i j - rowMin s i) }

/-- munkres.py:577-591 `__step6`: first the sum, then the difference is stored.  The smallest cost is rounded as it may
be the integer `sys.maxint`, which the addition to a float first turns into a float. -/
def step6Fl (fl : ℚ → ℚ) (s : St) : St :=
  let m := fl (findSmallest s)
  { s with C := fun i j =>
      let x := if s.rowC i then fl (s.C i j + m) else s.C i j
      if s.colC j = false then fl (x - m) else x }

/-- munkres.py:418-430: the dispatch on the step number. -/
def runStepFl (fl : ℚ → ℚ) (a : St × Nat) : Py (St × Nat) :=
  match a.2 with
  | 1 => .ok (step1Fl fl a.1, 2)
  | 6 => .ok (step6Fl fl a.1, 4)
  | _ => runStep a

/-- munkres.py:383-439 `compute`. -/
def computeFl (fl : ℚ → ℚ) (fuel : Nat) (m : List (List ℚ)) : Py (List (Nat × Nat)) :=
  match m with
  | [] => .error .indexError
  | row0 :: _ =>
    match Py.whileLoop (fun a : St × Nat => .ok (decide (1 ≤ a.2 ∧ a.2 ≤ 6))) (runStepFl fl) fuel
        (initSt (padMatrix m), 1) with
    | .ok a => .ok ((cells m.length row0.length).filter fun p => a.1.mark p.1 p.2 = 1)
    | .error e => .error e

end Verif.Munkres
