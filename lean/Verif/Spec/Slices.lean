import Verif.Py

/-! Specification of Python slices of a sequence of length `n`. -/
namespace Verif.Spec.Slices

/-- The position a bound stands for: negative bounds count from the end. -/
def pos (n : Nat) (a : Int) : Int := if a < 0 then a + n else a

/-- Is position `k` before the slice that starts at `i`? -/
def before (n : Nat) (i : Option Int) (k : Nat) : Bool :=
  match i with
  | none => false
  | some a => decide ((k : Int) < pos n a)

/-- Is position `k` before the end of the slice that ends at `j`? -/
def notPast (n : Nat) (j : Option Int) (k : Nat) : Bool :=
  match j with
  | none => true
  | some b => decide ((k : Int) < pos n b)

/-- Is position `k` in the slice `[i:j]`? -/
def inSlice (n : Nat) (i j : Option Int) (k : Nat) : Bool := !before n i k && notPast n j k

/-- Is position `k` after the slice `[i:j]`? -/
def past (n : Nat) (i j : Option Int) (k : Nat) : Bool := !before n i k && !notPast n j k

/-- The items of a list at the positions that satisfy `p`. -/
def itemsAt {α : Type} (l : List α) (p : Nat → Bool) : List α := (l.zipIdx.filter fun x => p x.2).map Prod.fst

end Verif.Spec.Slices
