import Verif.Model.StatsTable

/-! Model of lib/daeso/thirdparty/munkres.py:727-759 `print_matrix` for matrices of integers: what is written, and the exception that is
raised, if any. `lg` is `int(math.log10(v))` of positive integers. Messages are strings of bytes or characters; floats in the matrix
are not modelled. -/
namespace Verif.MatrixPrint
open Verif Verif.Etree Verif.StatsTable

/-- 744-747 the loops over the values: logarithms of other than positive numbers are a ValueError. -/
def width (lg : Nat → Nat) : Nat → List Int → Py Nat
  | w, [] => .ok w
  | w, v :: l => if v ≤ 0 then .error .valueError else width lg (max w (lg v.toNat + 1)) l

/-- 755-757 the loop over the values of a row, from the separator on. -/
def cells (w : Nat) : Text → List Int → Text
  | _, [] => []
  | sep, v :: l => sep ++ rjust w (showInt v) ++ cells w [',', ' '] l

/-- 754-758 one row. -/
def line (w : Nat) (row : List Int) : Text := cells w ['['] row ++ [']', '\n']

/-- 727-758 `print_matrix`. -/
def printMatrix (lg : Nat → Nat) (rows : List (List Int)) (msg : Option Text) : Text × Option Err :=
  let head := match msg with
    | some m => m ++ ['\n']
    | none => []
  match width lg 0 rows.flatten with
  | .error e => (head, some e)
  | .ok w => (head ++ (rows.map (line w)).flatten, none)

end Verif.MatrixPrint
