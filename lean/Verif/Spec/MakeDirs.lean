import Verif.Model.MakeDirs

/-! What making directories does. Of the model, the description of disks and the resolution of paths are used here (which is described by `Leads`). -/
namespace Verif.Spec.MakeDirs
open Verif Verif.Etree Verif.MakeDirs

/-- Things are in directories. -/
def Closed (d : Disk) : Prop := ∀ x n, d.node (x ++ [n]) ≠ none → d.node x = some .dir

/-- A name of a file, not a dot or two. -/
def Plain (n : Text) : Prop := n ≠ ['.'] ∧ n ≠ ['.', '.']

/-- The disk `d` with directories at the first `k` places below `x` along `b` in addition. -/
def With (d : Disk) (x b : List Text) (k : Nat) (d' : Disk) : Prop :=
  d'.may = d.may ∧ d'.depth = d.depth ∧ ∀ y, d'.node y = if ∃ i < k, y = x ++ b.take (i + 1) then some .dir else d.node y

/-- Nothing has changed but that there are new directories. -/
def Grown (d d' : Disk) : Prop :=
  d'.may = d.may ∧ d'.depth = d.depth ∧ ∀ y, d'.node y = d.node y ∨ d.node y = none ∧ d'.node y = some .dir

/-- Where names lead from a place: through directories only, up at two dots, and through links, which lead from the root or from the
directory that they are in. -/
inductive Leads (d : Disk) : List Text → List Text → List Text → Prop
  | here (c : List Text) : Leads d c [] c
  | dot {c l r : List Text} : d.node c = some .dir → Leads d c l r → Leads d c (['.'] :: l) r
  | up {c l r : List Text} : d.node c = some .dir → Leads d c.dropLast l r → Leads d c (['.', '.'] :: l) r
  | entry {c l r : List Text} {n : Text} {k : Kind} : d.node c = some .dir → Plain n → d.node (c ++ [n]) = some k → (∀ t, k ≠ .link t) →
    Leads d (c ++ [n]) l r → Leads d c (n :: l) r
  | link {c c' l r : List Text} {n t : Text} : d.node c = some .dir → Plain n → d.node (c ++ [n]) = some (.link t) →
    Leads d (if t.head? = some '/' then [] else c) (RelPath.names t) c' → Leads d c' l r → Leads d c (n :: l) r

end Verif.Spec.MakeDirs
