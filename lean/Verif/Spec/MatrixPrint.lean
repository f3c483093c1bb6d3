import Verif.Py
import Mathlib.Data.List.Forall2

/-! How a matrix looks in print. Nothing of the model is used here. -/
namespace Verif.Spec.MatrixPrint

/-- The number `n` at the right of a field of width `w`. -/
def Field (w : Nat) (n : Int) (f : List Char) : Prop :=
  f.length = w ∧ ∃ k, f = List.replicate k ' ' ++ Nat.toDigits 10 n.toNat

/-- The line of a row: fields of one width, commas between them, and brackets around - but an empty row has the second bracket only. -/
def Line (w : Nat) (row : List Int) (t : List Char) : Prop :=
  ∃ fs, List.Forall₂ (Field w) row fs ∧
    t = (if row = [] then [] else ['[']) ++ List.intercalate [',', ' '] fs ++ [']', '\n']

/-- All entries are positive. -/
def Positive (rows : List (List Int)) : Prop := ∀ row ∈ rows, ∀ v ∈ row, 0 < v

end Verif.Spec.MatrixPrint
