import Verif.Model.Etree

/-! What an indented element looks like. -/
namespace Verif.Spec.Layout
open Verif Verif.Etree

/-- A line break and two spaces for each level. -/
def lineBreak : Nat → Text
  | n => '\n' :: (List.replicate n [' ', ' ']).flatten

/-- Missing or blank text becomes a line break to level `n`; other text stays. -/
def fill (ws : Char → Bool) (x : Option Text) (n : Nat) : Option Text :=
  if x.all (fun s => s.all ws) then some (lineBreak n) else x

mutual
/-- The element at level `n`, followed by something on level `after` (or nothing). -/
def laid (ws : Char → Bool) (n : Nat) (after : Option Nat) : Elem → Elem
  | .mk t a x l c => .mk t a (if c = [] then x else fill ws x (n + 1)) (after.elim l (fill ws l)) (laidChildren ws n c)

/-- The children of an element at level `n`: each is followed by the next child, and the last by the end tag. -/
def laidChildren (ws : Char → Bool) (n : Nat) : List Elem → List Elem
  | [] => []
  | [e] => [laid ws (n + 1) (some n) e]
  | e :: es => laid ws (n + 1) (some (n + 1)) e :: laidChildren ws n es
end

end Verif.Spec.Layout
