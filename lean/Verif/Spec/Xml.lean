import Verif.Model.Etree

/-! Specification of "the same XML content" and of "reindented" for element trees. -/
namespace Verif.Spec.Xml
open Verif Verif.Etree

/-- How a text is compared: absent text as the word None, and without white space at both ends. -/
def shown (ws : Char → Bool) (x : Option Text) : Text := strip ws (x.getD "None".toList)

mutual
/-- Same tag, same shown text and tail, same attributes, and the same children in the same order. -/
def Same (ws : Char → Bool) : Elem → Elem → Prop
  | .mk t1 a1 x1 l1 c1, .mk t2 a2 x2 l2 c2 =>
    t1 = t2 ∧ shown ws x1 = shown ws x2 ∧ shown ws l1 = shown ws l2 ∧ (∀ k, a1.get? k = a2.get? k) ∧ SameList ws c1 c2
/-- Elements of two lists, pairwise. -/
def SameList (ws : Char → Bool) : List Elem → List Elem → Prop
  | [], [] => True
  | e1 :: l1, e2 :: l2 => Same ws e1 e2 ∧ SameList ws l1 l2
  | _, _ => False
end

/-- An ASCII text. -/
def AsciiText (x : Option Text) : Prop := ∀ s, x = some s → ∀ c ∈ s, c.toNat < 128

mutual
/-- All texts and tails are ASCII; attributes are a dict. -/
def Ascii : Elem → Prop
  | .mk _ a x l c => a.WF ∧ AsciiText x ∧ AsciiText l ∧ AsciiList c
/-- The same for all elements of a list. -/
def AsciiList : List Elem → Prop
  | [] => True
  | e :: es => Ascii e ∧ AsciiList es
end

/-- A text may only change from blank to blank. -/
def SameText (ws : Char → Bool) (x y : Option Text) : Prop := x = y ∨ (blank ws x = true ∧ blank ws y = true)

mutual
/-- The second element is the first with other white space. -/
def Respaced (ws : Char → Bool) : Elem → Elem → Prop
  | .mk t1 a1 x1 l1 c1, .mk t2 a2 x2 l2 c2 =>
    t1 = t2 ∧ a1 = a2 ∧ SameText ws x1 x2 ∧ SameText ws l1 l2 ∧ RespacedList ws c1 c2
/-- Elements of two lists, pairwise. -/
def RespacedList (ws : Char → Bool) : List Elem → List Elem → Prop
  | [], [] => True
  | e1 :: l1, e2 :: l2 => Respaced ws e1 e2 ∧ RespacedList ws l1 l2
  | _, _ => False
end

end Verif.Spec.Xml
