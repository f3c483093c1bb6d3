import Mathlib.Algebra.Order.Ring.Rat
import Mathlib.Algebra.BigOperators.Group.List.Basic

/-! Specification: alignments of two sequences as sets of index pairs, and their scores. -/
namespace Verif.Spec

/-- Index pairs that are strictly increasing in both components (no crossing, no double use). -/
def Increasing (A : List (Nat × Nat)) : Prop := A.Pairwise fun p q => p.1 < q.1 ∧ p.2 < q.2

/-- All index pairs lie in `[a, b) × [c, d)`. -/
def Within (A : List (Nat × Nat)) (a b c d : Nat) : Prop :=
  ∀ p ∈ A, a ≤ p.1 ∧ p.1 < b ∧ c ≤ p.2 ∧ p.2 < d

/-- Sum of the gap costs of the elements of `s` at positions in `[a, b)` that do not occur in `used`
(only applied with `b ≤ s.length`). -/
def gapSum {α : Type} (gap : α → ℚ) (s : List α) (used : List Nat) (a b : Nat) : ℚ :=
  (((List.range' a (b - a)).filter fun i => decide (i ∉ used)).map fun i => (s[i]?.map gap).getD 0).sum

/-- Similarity of the elements an index pair points at (only used for pairs that are in range). -/
def pairSim {α : Type} (sim : α → α → ℚ) (s t : List α) (p : Nat × Nat) : ℚ :=
  match s[p.1]?, t[p.2]? with
  | some x, some y => sim x y
  | _, _ => 0

/-- Score of the alignment `A` of the segments `s[a:b]` and `t[c:d]`: similarities of the aligned pairs
plus the gap costs of all unaligned elements of the segments. -/
def alignScore {α : Type} (sim : α → α → ℚ) (gap : α → ℚ) (s t : List α) (A : List (Nat × Nat))
    (a b c d : Nat) : ℚ :=
  (A.map (pairSim sim s t)).sum + gapSum gap s (A.map Prod.fst) a b + gapSum gap t (A.map Prod.snd) c d

/-- `A` is an alignment of the segments `s[a:b]` and `t[c:d]`. -/
structure IsAlignment {α : Type} (s t : List α) (A : List (Nat × Nat)) (a b c d : Nat) : Prop where
  inc : Increasing A
  within : Within A a b c d
  hab : a ≤ b
  hbs : b ≤ s.length
  hcd : c ≤ d
  hdt : d ≤ t.length

end Verif.Spec
