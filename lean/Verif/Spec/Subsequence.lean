/-! Specification: longest common subsequences, via core Lean's `List.Sublist` (`<+`). -/
namespace Verif.Spec

/-- `c` is a subsequence of both `a` and `b`. -/
def IsCommonSubseq {α : Type} (a b c : List α) : Prop := c.Sublist a ∧ c.Sublist b

/-- `c` is a longest common subsequence of `a` and `b`. -/
def IsLcs {α : Type} (a b c : List α) : Prop :=
  IsCommonSubseq a b c ∧ ∀ d, IsCommonSubseq a b d → d.length ≤ c.length

end Verif.Spec
