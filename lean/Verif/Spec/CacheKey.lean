import Verif.Model.CacheKey

/-! What calls of memoised functions give. Of the model, only the descriptions of functions, calls and operations are used here. -/
namespace Verif.Spec.CacheKey
open Verif Verif.CacheKey

variable {ν : Type}

/-- Keywords that memoised functions cannot have. -/
def Taken (x : Call ν) : Prop := ∃ e ∈ x.kwargs, e.1 ∈ [bytes "func", bytes "self", bytes "key", bytes "generator"]

instance (x : Call ν) : Decidable (Taken x) := by unfold Taken; infer_instance

/-- The result of a call: that of the function itself, unless a keyword is taken. -/
def answer (x : Call ν) : Py ν := if Taken x then .error .typeError else x.func.run x.args x.kwargs

/-- The calls among operations. -/
def calls (ops : List (Op ν)) : List (Call ν) := ops.filterMap fun op => match op with
  | .call x _ _ => some x
  | _ => none

/-- Two calls with the same function name and the same arguments. -/
def Same (x y : Call ν) : Prop := x.func.name = y.func.name ∧ x.args = y.args ∧ x.kwargs = y.kwargs

open Classical in
/-- A result is kept for the call `x` at time `t`, if results live for `e` (0: for ever): the last run of such a call (`past` has all
runs, the last one first, each with the time at which it ended) had a result, and it is not too old. -/
def Kept (e : ℚ) (past : List (Call ν × ℚ)) (x : Call ν) (t : ℚ) : Prop :=
  ∃ r v, past.find? (fun r => decide (Same r.1 x)) = some r ∧ r.1.func.run r.1.args r.1.kwargs = .ok v ∧ (e = 0 ∨ t ≤ r.2 + e)

open Classical in
/-- For which calls (each with the times at which it begins and ends) the function is run. -/
noncomputable def runs (e : ℚ) : List (Call ν × ℚ) → List (Call ν × ℚ × ℚ) → List Bool
  | _, [] => []
  | past, (x, t, t') :: xs =>
    if Taken x ∨ Kept e past x t then false :: runs e past xs else true :: runs e ((x, t') :: past) xs

end Verif.Spec.CacheKey
