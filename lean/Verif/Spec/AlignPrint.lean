import Verif.Model.AlignPrint

/-! What a printed matrix looks like (C75). -/
namespace Verif.Spec.AlignPrint
open Verif.Etree

/-- A line with a margin of two parts, `a` and `b` characters wide, and fields of `w` characters: `s1` and `s2` at the left
of the parts of the margin, and `xs` at the right of the fields. -/
structure Line (a b w : Nat) (s1 s2 : Text) (xs : List Text) (l : Text) : Prop where
  length : l.length = a + b + xs.length * w
  first : l.take a = s1 ++ List.replicate (a - s1.length) ' '
  second : (l.drop a).take b = s2 ++ List.replicate (b - s2.length) ' '
  fields : ∀ j x, xs[j]? = some x → (l.drop (a + b + j * w)).take w = List.replicate (w - x.length) ' ' ++ x

/-- Lines, each with a line end. -/
def ended (ls : List Text) : Text := (ls.map (· ++ ['\n'])).flatten

/-- The decimal text of a number. -/
def decimal (n : Nat) : Text := (toString n).toList

/-- The number without its decimals. -/
def whole (q : ℚ) : Int := if 0 ≤ q then ⌊q⌋ else -⌊-q⌋

/-- The initial of a step: to the start (T), diagonal (D), up (U) or left (L). -/
def initial : Align.Dir → Char
  | .T => 'T'
  | .D => 'D'
  | .U => 'U'
  | .L => 'L'

end Verif.Spec.AlignPrint
