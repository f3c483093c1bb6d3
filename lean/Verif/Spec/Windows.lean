/-! Specification: contiguous windows and skip-bigrams by position. -/
namespace Verif.Spec

/-- `w` occurs in `l` at position `k`. -/
def OccursAt {α : Type} (l w : List α) (k : Nat) : Prop :=
  ∃ pre suf, l = pre ++ w ++ suf ∧ pre.length = k

/-- All pairs of positions `(i, j)` with `i < j < len` skipping at most `limit` elements, in
lexicographic order. -/
def skipPositions (len limit : Nat) : List (Nat × Nat) :=
  (List.range len).flatMap fun i =>
    ((List.range len).filter fun j => decide (i < j ∧ j - i - 1 ≤ limit)).map fun j => (i, j)

end Verif.Spec
