/-! Specification: one-element edits and chains of them. -/
namespace Verif.Spec

/-- `t` results from `s` by inserting, deleting or replacing one element. -/
inductive EditStep {α : Type} : List α → List α → Prop
  | insert (pre suf : List α) (x : α) : EditStep (pre ++ suf) (pre ++ x :: suf)
  | delete (pre suf : List α) (x : α) : EditStep (pre ++ x :: suf) (pre ++ suf)
  | replace (pre suf : List α) (x y : α) : EditStep (pre ++ x :: suf) (pre ++ y :: suf)

/-- `EditChain k s t`: `k` successive one-element edits lead from `s` to `t`. -/
inductive EditChain {α : Type} : Nat → List α → List α → Prop
  | refl (s : List α) : EditChain 0 s s
  | step {k : Nat} {s t u : List α} : EditChain k s t → EditStep t u → EditChain (k + 1) s u

/-- `d` is the least number of one-element edits that turn `s` into `t`. -/
def IsEditDistance {α : Type} (s t : List α) (d : Nat) : Prop :=
  EditChain d s t ∧ ∀ k, EditChain k s t → d ≤ k

end Verif.Spec
