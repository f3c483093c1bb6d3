/-! Specification: ordered trees. -/
namespace Verif.Spec

/-- An ordered tree with named nodes. -/
inductive OTree (κ : Type) where
  | node (x : κ) (children : List (OTree κ))

namespace OTree
variable {κ : Type}

/-- The name of the root. -/
def root : OTree κ → κ
  | node x _ => x

mutual
/-- All node names, parents before children, left to right. -/
def names : OTree κ → List κ
  | node x ts => x :: namesL ts
/-- The same for a list of trees. -/
def namesL : List (OTree κ) → List κ
  | [] => []
  | t :: ts => names t ++ namesL ts
end

mutual
/-- The leaves from left to right. -/
def leaves : OTree κ → List κ
  | node x ts => match ts with
    | [] => [x]
    | t :: ts => leaves t ++ leavesL ts
/-- The same for a list of trees. -/
def leavesL : List (OTree κ) → List κ
  | [] => []
  | t :: ts => leaves t ++ leavesL ts
end

mutual
/-- A successor function lists for every node of the tree its children in order. -/
def Draws (succs : κ → List κ) : OTree κ → Prop
  | node x ts => succs x = ts.map root ∧ DrawsL succs ts
/-- The same for a list of trees. -/
def DrawsL (succs : κ → List κ) : List (OTree κ) → Prop
  | [] => True
  | t :: ts => Draws succs t ∧ DrawsL succs ts
end

end OTree
end Verif.Spec
