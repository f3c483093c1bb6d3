import Verif.Py

/-! Threads that call the methods of one object whose methods are decorated with `synchronized`
(lib/daeso/thirdparty/GenericCache/decorators.py:47-61).  A method body is a tree of atomic steps on the shared state; the
scheduler may switch threads between any two steps.  The lock is a `threading.RLock` (GenericCache.py:63): it has an owner
and a count. -/
namespace Verif.Threads
open Verif

/-- A program of atomic steps on a shared state `σ`.  A step updates the state and goes on with a program that depends on the
state it found. -/
inductive Cmd (σ ρ : Type) : Type
  | ret (r : ρ)
  | step (upd : σ → σ) (next : σ → Cmd σ ρ)
  | acquire (next : Cmd σ ρ)
  | release (next : Cmd σ ρ)

variable {σ ρ τ ι κ : Type}

/-- Sequential composition. -/
def Cmd.bind : Cmd σ ρ → (ρ → Cmd σ τ) → Cmd σ τ
  | .ret r, f => f r
  | .step u n, f => .step u fun s => (n s).bind f
  | .acquire c, f => .acquire (c.bind f)
  | .release c, f => .release (c.bind f)

/-- Python code: a program whose result is a value or an exception. -/
def Act (σ α : Type) : Type := Cmd σ (Py α)

/-- A statement that runs another: an exception ends the program. -/
def Act.bind {α β : Type} (c : Act σ α) (f : α → Act σ β) : Act σ β :=
  Cmd.bind c fun r => match r with
    | .ok a => f a
    | .error e => .ret (.error e)

instance : Monad (Act σ) where
  pure a := Cmd.ret (.ok a)
  bind := Act.bind

/-- Read from the state; the value may be an exception. -/
def look {α : Type} (f : σ → Py α) : Act σ α := Cmd.step id fun s => .ret (f s)

/-- Write to the state. -/
def write (f : σ → σ) : Act σ Unit := Cmd.step f fun _ => .ret (.ok ())

/-- Write to the state, or raise. -/
def tryWrite (ok : σ → Bool) (e : Err) (f : σ → σ) : Act σ Unit :=
  Cmd.step (fun s => if ok s then f s else s) fun s => .ret (if ok s then .ok () else .error e)

/-- Raise. -/
def raise {α : Type} (e : Err) : Act σ α := Cmd.ret (.error e)

/-- decorators.py:47-61 `synchronized`: acquire, run, and release whether or not there was an exception. -/
def synchronized (body : Cmd σ ρ) : Cmd σ ρ := .acquire (body.bind fun r => .release (.ret r))

/-- A thread: the call it is in, the calls it will make, and the calls it made with their results. -/
structure Thread (σ ρ κ : Type) where
  cur : Option (κ × Cmd σ ρ)
  todo : List κ
  done : List (κ × ρ)

/-- All threads, the shared state and the lock (owner and count). -/
structure Conf (σ ρ ι κ : Type) where
  st : σ
  lock : Option (ι × Nat)
  th : ι → Thread σ ρ κ

variable [DecidableEq ι]

/-- Thread `i` becomes `t`. -/
def Conf.put (c : Conf σ ρ ι κ) (i : ι) (t : Thread σ ρ κ) : Conf σ ρ ι κ :=
  { c with th := fun j => if j = i then t else c.th j }

/-- `RLock.acquire` by thread `i`: `none` if the thread has to wait. -/
def lockAcquire (l : Option (ι × Nat)) (i : ι) : Option (Option (ι × Nat)) :=
  match l with
  | none => some (some (i, 1))
  | some (j, n) => if j = i then some (some (i, n + 1)) else none

/-- `RLock.release` by thread `i`: `none` if the lock is not its. -/
def lockRelease (l : Option (ι × Nat)) (i : ι) : Option (Option (ι × Nat)) :=
  match l with
  | none => none
  | some (j, n) => if j = i then some (if n = 1 then none else some (i, n - 1)) else none

/-- One step of thread `i`, where `impl` is the program of a call.  A thread that cannot go on stays where it is. -/
def stepThread (impl : κ → Cmd σ ρ) (c : Conf σ ρ ι κ) (i : ι) : Conf σ ρ ι κ :=
  match (c.th i).cur with
  | none =>
    match (c.th i).todo with
    | [] => c
    | k :: ks => c.put i { c.th i with cur := some (k, impl k), todo := ks }
  | some (k, .ret r) => c.put i { c.th i with cur := none, done := (c.th i).done ++ [(k, r)] }
  | some (k, .step u n) => { c.put i { c.th i with cur := some (k, n c.st) } with st := u c.st }
  | some (k, .acquire p) =>
    match lockAcquire c.lock i with
    | some l => { c.put i { c.th i with cur := some (k, p) } with lock := l }
    | none => c
  | some (k, .release p) =>
    match lockRelease c.lock i with
    | some l => { c.put i { c.th i with cur := some (k, p) } with lock := l }
    | none => c

/-- A schedule: which thread makes the next step. -/
def exec (impl : κ → Cmd σ ρ) (c : Conf σ ρ ι κ) (sched : List ι) : Conf σ ρ ι κ := sched.foldl (stepThread impl) c

/-- The start: nobody has begun, the lock is free. -/
def start (s : σ) (prog : ι → List κ) : Conf σ ρ ι κ := ⟨s, none, fun i => ⟨none, prog i, []⟩⟩

end Verif.Threads
