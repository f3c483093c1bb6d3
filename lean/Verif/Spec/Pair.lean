import Verif.Model.Pair

/-! What a pair holds, as a tree without addresses (C78). -/
namespace Verif.Spec.Pair
open Verif.Etree (Text)
open Verif.Pair (Item Heap)

/-- The content of an object: the objects that a pair holds, the objects that those hold, and so on. -/
inductive Tree
  | none
  | int (n : Int)
  | str (s : List (Fin 256))
  | uni (t : Text)
  | pair (source target : Tree)
  deriving DecidableEq

/-- In heap h, an object has a content. -/
inductive Content (h : Heap) : Item → Tree → Prop
  | none : Content h .none .none
  | int (n : Int) : Content h (.int n) (.int n)
  | str (s : List (Fin 256)) : Content h (.str s) (.str s)
  | uni (t : Text) : Content h (.uni t) (.uni t)
  | pair (a : Nat) (x y : Item) (s t : Tree) : h[a]? = some (x, y) → Content h x s → Content h y t →
      Content h (.pair a) (.pair s t)

/-- How deep pairs are nested. -/
def Tree.depth : Tree → Nat
  | .pair s t => max s.depth t.depth + 1
  | _ => 0

/-- The same content, where a string of ASCII bytes and a unicode string are the same if their characters are. -/
inductive Same : Tree → Tree → Prop
  | refl (t : Tree) : Same t t
  | ascii (s : List (Fin 256)) (t : Text) : (∀ b ∈ s, b.val < 128) → s.map Fin.val = t.map Char.toNat →
      Same (.str s) (.uni t)
  | unicode (s : List (Fin 256)) (t : Text) : (∀ b ∈ s, b.val < 128) → s.map Fin.val = t.map Char.toNat →
      Same (.uni t) (.str s)
  | pair (s t s' t' : Tree) : Same s s' → Same t t' → Same (.pair s t) (.pair s' t')

/-- A unicode string occurs in a content. -/
inductive Occurs (u : Text) : Tree → Prop
  | here : Occurs u (.uni u)
  | source (s t : Tree) : Occurs u s → Occurs u (.pair s t)
  | target (s t : Tree) : Occurs u t → Occurs u (.pair s t)

/-- From an object, one comes to the pair at address a. -/
inductive Reaches (h : Heap) (a : Nat) : Item → Prop
  | here : Reaches h a (.pair a)
  | source (b : Nat) (x y : Item) : h[b]? = some (x, y) → Reaches h a x → Reaches h a (.pair b)
  | target (b : Nat) (x y : Item) : h[b]? = some (x, y) → Reaches h a y → Reaches h a (.pair b)

/-- Every address that occurs is that of a pair. -/
def Closed (h : Heap) : Prop :=
  ∀ (a : Nat) (x y : Item), h[a]? = some (x, y) → (∀ b, x = .pair b → b < h.length) ∧ (∀ b, y = .pair b → b < h.length)

end Verif.Spec.Pair
