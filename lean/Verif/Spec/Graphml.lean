import Verif.Model.Graphml

/-! Documents whose graphs are not nested (C48). -/
namespace Verif.Spec.Graphml
open Verif Verif.Graphml

mutual
/-- The content of a graph: no graph, <graphml> or <default> in it. -/
def InGraph : Doc → Prop
  | .text _ => True
  | .elem tag _ content => tag ≠ "graph" ∧ tag ≠ "graphml" ∧ tag ≠ "default" ∧ InGraphAll content
/-- For all pieces. -/
def InGraphAll : List Doc → Prop
  | [] => True
  | d :: ds => InGraph d ∧ InGraphAll ds
end

mutual
/-- A piece of the document outside graphs. -/
def Flat : Doc → Prop
  | .text _ => True
  | .elem tag _ content => tag ≠ "graphml" ∧ (tag = "graph" → InGraphAll content) ∧ (tag ≠ "graph" → FlatAll content)
/-- For all pieces. -/
def FlatAll : List Doc → Prop
  | [] => True
  | d :: ds => Flat d ∧ FlatAll ds
end

/-- A document without nested graphs. -/
def Plain : Doc → Prop
  | .text _ => True
  | .elem _ _ content => FlatAll content

end Verif.Spec.Graphml
