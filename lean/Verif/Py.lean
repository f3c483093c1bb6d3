/-
Common vocabulary for modelling Python 2 code: exceptions as values, list indexing with IndexError,
`for i in range(a, b)`, and `while` with an explicit step budget.
Nothing here models a particular function of /repo; it is the fragment of Python semantics the models use.
-/
namespace Verif

/-- The exceptions that the modelled code can raise. `fuel` is not a Python exception: it marks that a
`while` loop has not finished within the step budget it was given. -/
inductive Err
  | indexError | keyError | zeroDivision | valueError | typeError | attributeError | nameError
  | assertionError | daesoError | networkXError | stopIteration | overflowError | fuel
  | osError | unicodeError | notImplemented | userWarning | eofError
  deriving DecidableEq, Repr

/-- A Python computation: a value or a raised exception. -/
abbrev Py := Except Err

namespace Py

/-- `l[i]` for a non-negative index `i`. -/
def get {α : Type _} (l : List α) (i : Nat) : Py α :=
  match l[i]? with
  | some x => .ok x
  | none => .error .indexError

/-- `l[i] = x` for a non-negative index `i`. -/
def set {α : Type _} (l : List α) (i : Nat) (x : α) : Py (List α) :=
  if i < l.length then .ok (l.set i x) else .error .indexError

/-- `l[i]` for any Python integer `i` (negative indices count from the end). -/
def getI {α : Type _} (l : List α) (i : Int) : Py α :=
  if 0 ≤ i then get l i.toNat
  else if 0 ≤ i + l.length then get l (i + l.length).toNat
  else .error .indexError

/-- Body of `for i in range(start, start+k)` acting on a state. -/
def forLoop {σ : Type _} (f : Nat → σ → Py σ) : (k start : Nat) → σ → Py σ
  | 0, _, s => .ok s
  | k + 1, a, s =>
    match f a s with
    | .ok s' => forLoop f k (a + 1) s'
    | .error e => .error e

/-- `for i in range(a, b): s = f(i, s)`. -/
def forRange {σ : Type _} (a b : Nat) (s : σ) (f : Nat → σ → Py σ) : Py σ :=
  forLoop f (b - a) a s

/-- `for x in l: s = f(x, s)`. -/
def forIn {σ : Type _} {α : Type _} : List α → σ → (α → σ → Py σ) → Py σ
  | [], s, _ => .ok s
  | x :: xs, s, f =>
    match f x s with
    | .ok s' => forIn xs s' f
    | .error e => .error e

/-- `while cond(s): s = body(s)`, given a budget of loop tests; running out of budget is `Err.fuel`. -/
def whileLoop {σ : Type _} (cond : σ → Py Bool) (body : σ → Py σ) : Nat → σ → Py σ
  | 0, _ => .error .fuel
  | fuel + 1, s =>
    match cond s with
    | .error e => .error e
    | .ok false => .ok s
    | .ok true =>
      match body s with
      | .error e => .error e
      | .ok s' => whileLoop cond body fuel s'

/-- A Python `dict` used only through lookups and item assignment. -/
abbrev Dict (κ ν : Type _) := κ → Option ν

/-- `d[k]`. -/
def Dict.get {κ ν : Type _} (d : Dict κ ν) (k : κ) : Py ν :=
  match d k with
  | some v => .ok v
  | none => .error .keyError

/-- `d[k] = v`. -/
def Dict.set {κ ν : Type _} [DecidableEq κ] (d : Dict κ ν) (k : κ) (v : ν) : Dict κ ν :=
  fun k' => if k' = k then some v else d k'

/-- `{}`. -/
def Dict.empty {κ ν : Type _} : Dict κ ν := fun _ => none

/-! ### Basic reasoning lemmas -/

theorem get_ok {α : Type _} {l : List α} {i : Nat} (h : i < l.length) : get l i = .ok l[i] := by
  simp [get, h]

theorem get_eq_ok_iff {α : Type _} {l : List α} {i : Nat} {x : α} :
    get l i = .ok x ↔ l[i]? = some x := by
  unfold get; split <;> simp_all

theorem set_ok {α : Type _} {l : List α} {i : Nat} {x : α} (h : i < l.length) :
    set l i x = .ok (l.set i x) := by
  simp [set, h]

theorem forLoop_inv {σ : Type _} (f : Nat → σ → Py σ) (P : Nat → σ → Prop) :
    ∀ (k a : Nat) (s : σ), P a s →
      (∀ i s, a ≤ i → i < a + k → P i s → ∃ s', f i s = .ok s' ∧ P (i + 1) s') →
      ∃ s', forLoop f k a s = .ok s' ∧ P (a + k) s' := by
  intro k
  induction k with
  | zero => intro a s h _; exact ⟨s, rfl, h⟩
  | succ k ih =>
    intro a s h hstep
    obtain ⟨s1, h1, h2⟩ := hstep a s (Nat.le_refl _) (by omega) h
    obtain ⟨s2, h3, h4⟩ := ih (a + 1) s1 h2 (fun i s hi hi' => hstep i s (by omega) (by omega))
    refine ⟨s2, ?_, ?_⟩
    · simp [forLoop, h1, h3]
    · have : a + 1 + k = a + (k + 1) := by omega
      rwa [this] at h4

/-- Loop rule for `for i in range(a, b)`. -/
theorem forRange_inv {σ : Type _} {f : Nat → σ → Py σ} (P : Nat → σ → Prop) {a b : Nat} {s : σ}
    (hab : a ≤ b) (h0 : P a s)
    (hstep : ∀ i s, a ≤ i → i < b → P i s → ∃ s', f i s = .ok s' ∧ P (i + 1) s') :
    ∃ s', forRange a b s f = .ok s' ∧ P b s' := by
  have := forLoop_inv f P (b - a) a s h0 (fun i s hi hi' => hstep i s hi (by omega))
  have e : a + (b - a) = b := by omega
  rw [e] at this
  exact this

/-- Loop rule for `for x in l`, the invariant seeing the part of `l` already done. -/
theorem forIn_inv {σ α : Type _} {f : α → σ → Py σ} (P : List α → σ → Prop) {l : List α} {s : σ}
    (h0 : P [] s)
    (hstep : ∀ pre x suf s, l = pre ++ x :: suf → P pre s → ∃ s', f x s = .ok s' ∧ P (pre ++ [x]) s') :
    ∃ s', forIn l s f = .ok s' ∧ P l s' := by
  suffices H : ∀ (suf pre : List α) (s : σ), l = pre ++ suf → P pre s →
      ∃ s', forIn suf s f = .ok s' ∧ P l s' from H l [] s rfl h0
  intro suf
  induction suf with
  | nil => intro pre s hl hp; simp at hl; subst hl; exact ⟨s, rfl, hp⟩
  | cons x xs ih =>
    intro pre s hl hp
    obtain ⟨s1, h1, h2⟩ := hstep pre x xs s hl hp
    obtain ⟨s2, h3, h4⟩ := ih (pre ++ [x]) s1 (by simp [hl]) h2
    exact ⟨s2, by simp [forIn, h1, h3], h4⟩

/-- A `for` whose body never fails is a fold. -/
theorem forIn_ok {σ α : Type _} {f : α → σ → Py σ} {g : α → σ → σ} {l : List α} {s : σ}
    (h : ∀ x s, f x s = .ok (g x s)) :
    forIn l s f = .ok (l.foldl (fun s x => g x s) s) := by
  induction l generalizing s with
  | nil => rfl
  | cons x xs ih => simp [forIn, h, ih]

/-- Loop rule for `while`: a decreasing measure bounds the number of iterations. -/
theorem whileLoop_inv {σ : Type _} {cond : σ → Py Bool} {body : σ → Py σ} (P : σ → Prop) (μ : σ → Nat)
    (Q : σ → Prop)
    (hstep : ∀ s, P s → (cond s = .ok false ∧ Q s) ∨
      (cond s = .ok true ∧ ∃ s', body s = .ok s' ∧ P s' ∧ μ s' < μ s)) :
    ∀ (fuel : Nat) (s : σ), P s → μ s < fuel → ∃ s', whileLoop cond body fuel s = .ok s' ∧ Q s' := by
  intro fuel
  induction fuel with
  | zero => intro s _ h; omega
  | succ n ih =>
    intro s hp hm
    rcases hstep s hp with ⟨hc, hq⟩ | ⟨hc, s', hb, hp', hlt⟩
    · exact ⟨s, by simp [whileLoop, hc], hq⟩
    · obtain ⟨s2, h1, h2⟩ := ih s' hp' (by omega)
      exact ⟨s2, by simp [whileLoop, hc, hb, h1], h2⟩

/-- Partial-correctness rule for `while`. -/
theorem whileLoop_partial {σ : Type _} {cond : σ → Py Bool} {body : σ → Py σ} (P : σ → Prop)
    (hstep : ∀ s s', P s → cond s = .ok true → body s = .ok s' → P s') :
    ∀ (fuel : Nat) (s s' : σ), P s → whileLoop cond body fuel s = .ok s' →
      P s' ∧ cond s' = .ok false := by
  intro fuel
  induction fuel with
  | zero => intro s s' _ h; simp [whileLoop] at h
  | succ n ih =>
    intro s s' hp h
    simp only [whileLoop] at h
    split at h
    · simp at h
    · rename_i hc; simp at h; subst h; exact ⟨hp, hc⟩
    · rename_i hc
      split at h
      · simp at h
      · rename_i s1 hb; exact ih s1 s' (hstep s s1 hp hc hb) h

theorem Dict.get_eq {κ ν : Type _} {d : Dict κ ν} {k : κ} {v : ν} (h : d k = some v) :
    d.get k = .ok v := by simp [Dict.get, h]

@[simp] theorem Dict.set_self {κ ν : Type _} [DecidableEq κ] (d : Dict κ ν) (k : κ) (v : ν) :
    d.set k v k = some v := by simp [Dict.set]

theorem Dict.set_ne {κ ν : Type _} [DecidableEq κ] (d : Dict κ ν) {k k' : κ} (v : ν) (h : k' ≠ k) :
    d.set k v k' = d k' := by simp [Dict.set, h]

end Py
end Verif
