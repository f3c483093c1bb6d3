import Verif.Model.Threads

/-! What it means that threads might as well have taken turns. -/
namespace Verif.Spec.Threads
open Verif.Threads

variable {σ ρ ι κ : Type}

/-- The effect and the result of a program that runs alone. -/
def alone : Cmd σ ρ → σ → σ × ρ
  | .ret r, s => (s, r)
  | .step u n, s => alone (n s) (u s)
  | .acquire c, s => alone c s
  | .release c, s => alone c s

/-- The calls of `log`, made one after the other, lead from `s` to `s'` with the results in `log`. -/
inductive Serial (impl : κ → Cmd σ ρ) : σ → List (ι × κ × ρ) → σ → Prop
  | nil (s : σ) : Serial impl s [] s
  | call (s : σ) (i : ι) (k : κ) (log : List (ι × κ × ρ)) (s' : σ)
      (h : Serial impl (alone (impl k) s).1 log s') : Serial impl s ((i, k, (alone (impl k) s).2) :: log) s'

/-- The calls of one thread in a log, with their results. -/
def callsOf [DecidableEq ι] (log : List (ι × κ × ρ)) (i : ι) : List (κ × ρ) :=
  (log.filter fun e => e.1 = i).map Prod.snd

/-- Thread `i` has made all its calls. -/
def Finished (c : Conf σ ρ ι κ) (i : ι) : Prop := (c.th i).cur = none ∧ (c.th i).todo = []

/-- The lock operations of a program are balanced: relative to the `k` nested acquires at its start it never releases more
than it acquired, and it returns with none left. -/
def Balanced : Nat → Cmd σ ρ → Prop
  | k, .ret _ => k = 0
  | k, .step _ n => ∀ s, Balanced k (n s)
  | k, .acquire c => Balanced (k + 1) c
  | 0, .release _ => False
  | k + 1, .release c => Balanced k c

end Verif.Spec.Threads
