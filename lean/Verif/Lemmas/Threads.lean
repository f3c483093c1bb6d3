import Verif.Spec.Threads
import Verif.Lemmas.Base

set_option linter.unusedSectionVars false
namespace Verif.Threads
open Verif Verif.Spec.Threads

variable {σ ρ τ ι κ : Type}

theorem alone_bind (c : Cmd σ ρ) (f : ρ → Cmd σ τ) (s : σ) :
    alone (c.bind f) s = alone (f (alone c s).2) (alone c s).1 := by
  induction c generalizing s with
  | ret r => rfl
  | step u n ih => simp only [Cmd.bind, alone, ih]
  | acquire c ih => simp only [Cmd.bind, alone, ih]
  | release c ih => simp only [Cmd.bind, alone, ih]

theorem alone_synchronized (c : Cmd σ ρ) (s : σ) : alone (synchronized c) s = alone c s := by
  simp only [synchronized, alone, alone_bind]

/-! ### Balanced programs -/

theorem balanced_bind {k : Nat} {c : Cmd σ ρ} {f : ρ → Cmd σ τ} (h : Balanced k c) (hf : ∀ r, Balanced 0 (f r)) :
    Balanced k (c.bind f) := by
  induction c generalizing k with
  | ret r => simp only [Balanced] at h; subst h; exact hf r
  | step u n ih => exact fun s => ih s (h s)
  | acquire c ih => exact ih h
  | release c ih =>
    cases k with
    | zero => exact absurd h (by simp [Balanced])
    | succ k => exact ih h

theorem balanced_synchronized {c : Cmd σ ρ} (h : Balanced 0 c) : Balanced 0 (synchronized c) := by
  have key : ∀ (c : Cmd σ ρ) (k : Nat), Balanced k c → Balanced (k + 1) (c.bind fun r => .release (.ret r)) := by
    intro c
    induction c with
    | ret r => intro k h; simp only [Balanced] at h; subst h; rfl
    | step u n ih => exact fun k h s => ih s k (h s)
    | acquire c ih => exact fun k h => ih (k + 1) h
    | release c ih =>
      intro k h
      cases k with
      | zero => exact absurd h (by simp [Balanced])
      | succ k => exact ih k h
  exact key c 0 h

/-- What is left of a synchronized call while its thread holds the lock `n` times. -/
def Held : Nat → Cmd σ ρ → Prop
  | _, .ret _ => False
  | n, .step _ f => ∀ s, Held n (f s)
  | n, .acquire c => Held (n + 1) c
  | 0, .release _ => False
  | 1, .release c => ∃ r, c = .ret r
  | n + 2, .release c => Held (n + 1) c

theorem held_of_balanced (c : Cmd σ ρ) : ∀ k, Balanced k c → Held (k + 1) (c.bind fun r => .release (.ret r)) := by
  induction c with
  | ret r => intro k h; simp only [Balanced] at h; subst h; exact ⟨r, rfl⟩
  | step u n ih => exact fun k h s => ih s k (h s)
  | acquire c ih => exact fun k h => ih (k + 1) h
  | release c ih =>
    intro k h
    cases k with
    | zero => exact absurd h (by simp [Balanced])
    | succ k => exact ih k h

/-! ### Serial runs -/

theorem serial_append {impl : κ → Cmd σ ρ} {s s1 : σ} {log : List (ι × κ × ρ)} (h : Serial impl s log s1) (i : ι) (k : κ) :
    Serial impl s (log ++ [(i, k, (alone (impl k) s1).2)]) (alone (impl k) s1).1 := by
  induction h with
  | nil s => exact .call s i k [] _ (.nil _)
  | call s j k' log s' h ih => exact .call s j k' _ _ ih

variable [DecidableEq ι]

theorem callsOf_append (log log' : List (ι × κ × ρ)) (i : ι) :
    callsOf (log ++ log') i = callsOf log i ++ callsOf log' i := by simp [callsOf]

theorem callsOf_self (i : ι) (k : κ) (r : ρ) : callsOf [(i, k, r)] i = [(k, r)] := by simp [callsOf]

theorem callsOf_ne {i j : ι} (h : j ≠ i) (k : κ) (r : ρ) : callsOf [(j, k, r)] i = [] := by simp [callsOf, h]

/-! ### The invariant -/

/-- A thread that does not hold the lock. -/
inductive Outside (impl : κ → Cmd σ ρ) (prog : List κ) (log : List (κ × ρ)) (t : Thread σ ρ κ) : Prop
  | idle (h1 : t.cur = none) (h2 : log = t.done) (h3 : prog = t.done.map Prod.fst ++ t.todo)
  | begun (k : κ) (h1 : t.cur = some (k, impl k)) (h2 : log = t.done) (h3 : prog = t.done.map Prod.fst ++ k :: t.todo)
  | ended (k : κ) (r : ρ) (h1 : t.cur = some (k, .ret r)) (h2 : log = t.done ++ [(k, r)])
      (h3 : prog = t.done.map Prod.fst ++ k :: t.todo)

/-- The log accounts for the configuration. -/
structure Inv (impl : κ → Cmd σ ρ) (prog : ι → List κ) (s0 : σ) (c : Conf σ ρ ι κ) (log : List (ι × κ × ρ)) : Prop where
  ex : ∃ s1, Serial impl s0 log s1 ∧ (match c.lock with
    | none => c.st = s1
    | some (i, n) => ∃ k p, (c.th i).cur = some (k, p) ∧ Held n p ∧ alone p c.st = alone (impl k) s1 ∧
        callsOf log i = (c.th i).done ∧ prog i = (c.th i).done.map Prod.fst ++ k :: (c.th i).todo)
  out : ∀ i, (∀ n, c.lock ≠ some (i, n)) → Outside impl (prog i) (callsOf log i) (c.th i)

theorem put_self (c : Conf σ ρ ι κ) (i : ι) (t : Thread σ ρ κ) : (c.put i t).th i = t := by simp [Conf.put]
theorem put_ne (c : Conf σ ρ ι κ) {i j : ι} (h : j ≠ i) (t : Thread σ ρ κ) : (c.put i t).th j = c.th j := by
  simp [Conf.put, h]

theorem Inv.start (impl : κ → Cmd σ ρ) (prog : ι → List κ) (s0 : σ) : Inv impl prog s0 (start s0 prog) [] where
  ex := ⟨s0, .nil s0, rfl⟩
  out i _ := .idle rfl rfl rfl

/-- A step of a thread that does not touch the lock or the state, between calls. -/
theorem Inv.local {impl : κ → Cmd σ ρ} {prog : ι → List κ} {s0 : σ} {c : Conf σ ρ ι κ} {log : List (ι × κ × ρ)}
    (h : Inv impl prog s0 c log) (i : ι) (hi : ∀ n, c.lock ≠ some (i, n)) (t : Thread σ ρ κ)
    (ht : Outside impl (prog i) (callsOf log i) t) : Inv impl prog s0 (c.put i t) log := by
  obtain ⟨⟨s1, hs, hl⟩, ho⟩ := h
  refine ⟨⟨s1, hs, ?_⟩, ?_⟩
  · show match c.lock with
      | none => c.st = s1
      | some (j, n) => _
    cases hc : c.lock with
    | none => rw [hc] at hl; exact hl
    | some jn =>
      obtain ⟨j, n⟩ := jn
      rw [hc] at hl
      have hj : j ≠ i := by rintro rfl; exact hi n hc
      simp only [put_ne c hj]
      exact hl
  · intro j hj
    by_cases hji : j = i
    · subst hji; rw [put_self]; exact ht
    · rw [put_ne c hji]; exact ho j hj

theorem Inv.step {impl body : κ → Cmd σ ρ} (himpl : ∀ k, impl k = synchronized (body k)) (hb : ∀ k, Balanced 0 (body k))
    {prog : ι → List κ} {s0 : σ} {c : Conf σ ρ ι κ} {log : List (ι × κ × ρ)}
    (h : Inv impl prog s0 c log) (i : ι) : ∃ log', Inv impl prog s0 (stepThread impl c i) (log ++ log') := by
  by_cases hi : ∀ n, c.lock ≠ some (i, n)
  · -- thread i does not hold the lock
    obtain ⟨h1, h2, h3⟩ | ⟨k, h1, h2, h3⟩ | ⟨k, r, h1, h2, h3⟩ := h.out i hi
    · refine ⟨[], ?_⟩
      rw [List.append_nil]
      unfold stepThread
      rw [h1]
      dsimp only
      cases ht : (c.th i).todo with
      | nil => exact h
      | cons k ks =>
        dsimp only
        exact h.local i hi _ (.begun k rfl h2 (by rw [h3, ht]))
    · -- acquire
      refine ⟨[], ?_⟩
      rw [List.append_nil]
      have e : impl k = .acquire ((body k).bind fun r => .release (.ret r)) := himpl k
      unfold stepThread
      rw [h1, e]
      dsimp only
      cases hc : c.lock with
      | some jn =>
        obtain ⟨j, n⟩ := jn
        have hj : j ≠ i := by rintro rfl; exact hi n hc
        simp only [lockAcquire, hj, if_false]
        exact h
      | none =>
        simp only [lockAcquire]
        obtain ⟨⟨s1, hs, hl⟩, ho⟩ := h
        rw [hc] at hl
        dsimp only at hl
        refine ⟨⟨s1, hs, k, _, by rw [put_self], held_of_balanced _ 0 (hb k), ?_, ?_, ?_⟩, ?_⟩
        · show alone _ c.st = _
          rw [hl, himpl k]; rfl
        · rw [put_self]; exact h2
        · rw [put_self]; exact h3
        · intro j hj
          have hji : j ≠ i := by rintro rfl; exact hj 1 rfl
          show Outside _ _ _ ((c.put i _).th j)
          rw [put_ne c hji]
          exact ho j (by rw [hc]; simp)
    · refine ⟨[], ?_⟩
      rw [List.append_nil]
      unfold stepThread
      rw [h1]
      dsimp only
      exact h.local i hi _ (.idle rfl h2 (by rw [h3]; simp))
  · -- thread i holds the lock
    push Not at hi
    obtain ⟨n, hn⟩ := hi
    obtain ⟨⟨s1, hs, hl⟩, ho⟩ := h
    rw [hn] at hl
    dsimp only at hl
    obtain ⟨k, p, h1, h2, h3, h4, h5⟩ := hl
    have hout : ∀ j, j ≠ i → Outside impl (prog j) (callsOf log j) (c.th j) := fun j hj =>
      ho j (by rw [hn]; intro m hm; simp only [Option.some.injEq, Prod.mk.injEq] at hm; exact hj hm.1.symm)
    unfold stepThread
    rw [h1]
    cases p with
    | ret r => exact absurd h2 (by simp [Held])
    | step u f =>
      refine ⟨[], ?_⟩
      rw [List.append_nil]
      refine ⟨⟨s1, hs, ?_⟩, ?_⟩
      · show match c.lock with | none => _ | some (j, m) => _
        rw [hn]
        refine ⟨k, f c.st, ?_, h2 c.st, h3, ?_, ?_⟩
        · show ((c.put i _).th i).cur = _; rw [put_self]
        · show callsOf log i = ((c.put i _).th i).done; rw [put_self]; exact h4
        · show prog i = ((c.put i _).th i).done.map Prod.fst ++ k :: ((c.put i _).th i).todo; rw [put_self]; exact h5
      · intro j hj
        have hji : j ≠ i := by rintro rfl; exact hj n hn
        show Outside _ _ _ ((c.put i _).th j)
        rw [put_ne c hji]; exact hout j hji
    | acquire q =>
      refine ⟨[], ?_⟩
      rw [List.append_nil]
      dsimp only
      simp only [hn, lockAcquire, if_true]
      refine ⟨⟨s1, hs, k, q, ?_, h2, h3, ?_, ?_⟩, ?_⟩
      · show ((c.put i _).th i).cur = _; rw [put_self]
      · show callsOf log i = ((c.put i _).th i).done; rw [put_self]; exact h4
      · show prog i = ((c.put i _).th i).done.map Prod.fst ++ k :: ((c.put i _).th i).todo; rw [put_self]; exact h5
      · intro j hj
        have hji : j ≠ i := by rintro rfl; exact hj (n + 1) rfl
        show Outside _ _ _ ((c.put i _).th j)
        rw [put_ne c hji]; exact hout j hji
    | release q =>
      dsimp only
      simp only [hn, lockRelease, if_true]
      match n, h2 with
      | 1, ⟨r, hr⟩ =>
        subst hr
        simp only [alone] at h3
        refine ⟨[(i, k, r)], ?_⟩
        have e1 : (alone (impl k) s1).1 = c.st := by rw [← h3]
        have e2 : (alone (impl k) s1).2 = r := by rw [← h3]
        have hs' := serial_append hs i k
        rw [e1, e2] at hs'
        refine ⟨⟨c.st, hs', rfl⟩, ?_⟩
        intro j _
        by_cases hji : j = i
        · subst hji
          show Outside _ _ _ ((c.put j _).th j)
          rw [put_self, callsOf_append, callsOf_self]
          exact .ended k r rfl (by rw [h4]) h5
        · show Outside _ _ _ ((c.put i _).th j)
          rw [put_ne c hji, callsOf_append, callsOf_ne (Ne.symm hji), List.append_nil]
          exact hout j hji
      | m + 2, h2 =>
        refine ⟨[], ?_⟩
        rw [List.append_nil]
        have hm : ¬ m + 2 = 1 := by omega
        simp only [hm, if_false, show m + 2 - 1 = m + 1 from rfl]
        refine ⟨⟨s1, hs, k, q, ?_, h2, h3, ?_, ?_⟩, ?_⟩
        · show ((c.put i _).th i).cur = _; rw [put_self]
        · show callsOf log i = ((c.put i _).th i).done; rw [put_self]; exact h4
        · show prog i = ((c.put i _).th i).done.map Prod.fst ++ k :: ((c.put i _).th i).todo; rw [put_self]; exact h5
        · intro j hj
          have hji : j ≠ i := by rintro rfl; exact hj (m + 1) rfl
          show Outside _ _ _ ((c.put i _).th j)
          rw [put_ne c hji]; exact hout j hji

theorem Inv.exec {impl body : κ → Cmd σ ρ} (himpl : ∀ k, impl k = synchronized (body k)) (hb : ∀ k, Balanced 0 (body k))
    {prog : ι → List κ} {s0 : σ} (sched : List ι) : ∀ {c : Conf σ ρ ι κ} {log : List (ι × κ × ρ)},
    Inv impl prog s0 c log → ∃ log', Inv impl prog s0 (exec impl c sched) (log ++ log') := by
  induction sched with
  | nil => intro c log h; exact ⟨[], by rw [List.append_nil]; exact h⟩
  | cons i is ih =>
    intro c log h
    obtain ⟨l1, h1⟩ := h.step himpl hb i
    obtain ⟨l2, h2⟩ := ih h1
    exact ⟨l1 ++ l2, by rw [← List.append_assoc]; exact h2⟩

theorem Inv.prefixes {impl : κ → Cmd σ ρ} {prog : ι → List κ} {s0 : σ} {c : Conf σ ρ ι κ} {log : List (ι × κ × ρ)}
    (h : Inv impl prog s0 c log) (i : ι) : (c.th i).done <+: callsOf log i ∧ (callsOf log i).map Prod.fst <+: prog i := by
  obtain ⟨s1, hs, hl⟩ := h.ex
  by_cases hown : ∀ n, c.lock ≠ some (i, n)
  · rcases h.out i hown with ⟨_, a2, a3⟩ | ⟨k, _, a2, a3⟩ | ⟨k, r, _, a2, a3⟩
    · rw [a2, a3]
      exact ⟨List.prefix_rfl, List.prefix_append _ _⟩
    · rw [a2, a3]
      exact ⟨List.prefix_rfl, List.prefix_append _ _⟩
    · have a3' : prog i = ((c.th i).done ++ [(k, r)]).map Prod.fst ++ (c.th i).todo := by simp [a3]
      rw [a2, a3']
      exact ⟨List.prefix_append _ _, List.prefix_append _ _⟩
  · push Not at hown
    obtain ⟨n, hn⟩ := hown
    rw [hn] at hl
    obtain ⟨k, p, _, _, _, a2, a3⟩ := hl
    rw [a2, a3]
    exact ⟨List.prefix_rfl, List.prefix_append _ _⟩

/-! ### Progress -/

/-- The lock is free and every call is outside. -/
theorem exec_append (impl : κ → Cmd σ ρ) (c : Conf σ ρ ι κ) (s s' : List ι) :
    exec impl c (s ++ s') = exec impl (exec impl c s) s' := List.foldl_append

/-- The lock owner, scheduled often enough, comes to the end of its call; nothing changes in other threads. -/
theorem owner_finishes (impl : κ → Cmd σ ρ) (i : ι) (k : κ) (p : Cmd σ ρ) : ∀ (n : Nat) (c : Conf σ ρ ι κ),
    c.lock = some (i, n) → (c.th i).cur = some (k, p) → Held n p →
    ∃ m, (exec impl c (List.replicate m i)).lock = none ∧
      (∃ r, ((exec impl c (List.replicate m i)).th i).cur = some (k, .ret r)) ∧
      ((exec impl c (List.replicate m i)).th i).todo = (c.th i).todo ∧
      ∀ j, j ≠ i → (exec impl c (List.replicate m i)).th j = c.th j := by
  induction p with
  | ret r => intro n c _ _ h; exact absurd h (by simp [Held])
  | step u f ih =>
    intro n c hl hc hh
    have e : stepThread impl c i = { c.put i { c.th i with cur := some (k, f c.st) } with st := u c.st } := by
      unfold stepThread; rw [hc]
    obtain ⟨m, h1, h2, h3, h4⟩ := ih c.st n (stepThread impl c i) (by rw [e]; exact hl)
      (by rw [e]; show ((c.put i _).th i).cur = _; rw [put_self]) (hh c.st)
    refine ⟨m + 1, h1, h2, ?_, ?_⟩
    · refine h3.trans ?_
      rw [e]; show ((c.put i _).th i).todo = _; rw [put_self]
    · intro j hj
      refine (h4 j hj).trans ?_
      rw [e]; exact put_ne c hj _
  | acquire q ih =>
    intro n c hl hc hh
    have e : stepThread impl c i = { c.put i { c.th i with cur := some (k, q) } with lock := some (i, n + 1) } := by
      unfold stepThread; rw [hc]; dsimp only; simp only [hl, lockAcquire, if_true]
    obtain ⟨m, h1, h2, h3, h4⟩ := ih (n + 1) (stepThread impl c i) (by rw [e])
      (by rw [e]; show ((c.put i _).th i).cur = _; rw [put_self]) hh
    refine ⟨m + 1, h1, h2, ?_, ?_⟩
    · refine h3.trans ?_
      rw [e]; show ((c.put i _).th i).todo = _; rw [put_self]
    · intro j hj
      refine (h4 j hj).trans ?_
      rw [e]; exact put_ne c hj _
  | release q ih =>
    intro n c hl hc hh
    match n, hh with
    | 1, ⟨r, hr⟩ =>
      subst hr
      have e : stepThread impl c i = { c.put i { c.th i with cur := some (k, .ret r) } with lock := none } := by
        unfold stepThread; rw [hc]; dsimp only; simp only [hl, lockRelease, if_true]
      refine ⟨1, ?_, ⟨r, ?_⟩, ?_, ?_⟩
      · show (stepThread impl c i).lock = none; rw [e]
      · show ((stepThread impl c i).th i).cur = _; rw [e]; show ((c.put i _).th i).cur = _; rw [put_self]
      · show ((stepThread impl c i).th i).todo = _; rw [e]; show ((c.put i _).th i).todo = _; rw [put_self]
      · intro j hj; show (stepThread impl c i).th j = _; rw [e]; exact put_ne c hj _
    | m' + 2, hh =>
      have hm : ¬ m' + 2 = 1 := by omega
      have e : stepThread impl c i = { c.put i { c.th i with cur := some (k, q) } with lock := some (i, m' + 1) } := by
        unfold stepThread; rw [hc]; dsimp only; simp only [hl, lockRelease, if_true, hm, if_false]; rfl
      obtain ⟨m, h1, h2, h3, h4⟩ := ih (m' + 1) (stepThread impl c i) (by rw [e])
        (by rw [e]; show ((c.put i _).th i).cur = _; rw [put_self]) hh
      refine ⟨m + 1, h1, h2, ?_, ?_⟩
      · refine h3.trans ?_
        rw [e]; show ((c.put i _).th i).todo = _; rw [put_self]
      · intro j hj
        refine (h4 j hj).trans ?_
        rw [e]; exact put_ne c hj _

/-- With the lock free, a thread scheduled often enough makes all its calls. -/
theorem thread_finishes {impl body : κ → Cmd σ ρ} (himpl : ∀ k, impl k = synchronized (body k))
    (hb : ∀ k, Balanced 0 (body k)) (i : ι) : ∀ (todo : List κ) (c : Conf σ ρ ι κ),
    c.lock = none → (c.th i).todo = todo →
    ((c.th i).cur = none ∨ (∃ k, (c.th i).cur = some (k, impl k)) ∨ ∃ k r, (c.th i).cur = some (k, .ret r)) →
    ∃ m, (exec impl c (List.replicate m i)).lock = none ∧ Finished (exec impl c (List.replicate m i)) i ∧
      ∀ j, j ≠ i → (exec impl c (List.replicate m i)).th j = c.th j := by
  -- from the end of a call
  have ret : ∀ (todo : List κ), (∀ (c : Conf σ ρ ι κ), c.lock = none → (c.th i).todo = todo → (c.th i).cur = none →
      ∃ m, (exec impl c (List.replicate m i)).lock = none ∧ Finished (exec impl c (List.replicate m i)) i ∧
      ∀ j, j ≠ i → (exec impl c (List.replicate m i)).th j = c.th j) →
      ∀ (c : Conf σ ρ ι κ), c.lock = none → (c.th i).todo = todo → (∃ k r, (c.th i).cur = some (k, .ret r)) →
      ∃ m, (exec impl c (List.replicate m i)).lock = none ∧ Finished (exec impl c (List.replicate m i)) i ∧
      ∀ j, j ≠ i → (exec impl c (List.replicate m i)).th j = c.th j := by
    intro todo hN c hl ht hk
    obtain ⟨k, r, hk⟩ := hk
    have e : stepThread impl c i = c.put i { c.th i with cur := none, done := (c.th i).done ++ [(k, r)] } := by
      unfold stepThread; rw [hk]
    obtain ⟨m, h1, h2, h3⟩ := hN (stepThread impl c i) (by rw [e]; exact hl) (by rw [e, put_self]; exact ht)
      (by rw [e, put_self])
    exact ⟨m + 1, h1, h2, fun j hj => (h3 j hj).trans (by rw [e]; exact put_ne c hj _)⟩
  -- from the start of a call
  have beg : ∀ (todo : List κ), (∀ (c : Conf σ ρ ι κ), c.lock = none → (c.th i).todo = todo → (c.th i).cur = none →
      ∃ m, (exec impl c (List.replicate m i)).lock = none ∧ Finished (exec impl c (List.replicate m i)) i ∧
      ∀ j, j ≠ i → (exec impl c (List.replicate m i)).th j = c.th j) →
      ∀ (c : Conf σ ρ ι κ), c.lock = none → (c.th i).todo = todo → (∃ k, (c.th i).cur = some (k, impl k)) →
      ∃ m, (exec impl c (List.replicate m i)).lock = none ∧ Finished (exec impl c (List.replicate m i)) i ∧
      ∀ j, j ≠ i → (exec impl c (List.replicate m i)).th j = c.th j := by
    intro todo hN c hl ht hk
    obtain ⟨k, hk⟩ := hk
    have e0 : impl k = .acquire ((body k).bind fun r => .release (.ret r)) := himpl k
    rw [e0] at hk
    have e : stepThread impl c i =
        { c.put i { c.th i with cur := some (k, (body k).bind fun r => .release (.ret r)) } with lock := some (i, 1) } := by
      unfold stepThread; rw [hk]; dsimp only; simp only [hl, lockAcquire]
    obtain ⟨m1, a1, a2, a3, a4⟩ := owner_finishes impl i k _ 1 (stepThread impl c i) (by rw [e])
      (by rw [e]; show ((c.put i _).th i).cur = _; rw [put_self]) (held_of_balanced _ 0 (hb k))
    obtain ⟨r, a2⟩ := a2
    obtain ⟨m2, b1, b2, b3⟩ := ret todo hN (exec impl (stepThread impl c i) (List.replicate m1 i)) a1
      (by rw [a3, e]; show ((c.put i _).th i).todo = _; rw [put_self]; exact ht) ⟨k, r, a2⟩
    have e1 : exec impl c (List.replicate (m1 + m2 + 1) i) =
        exec impl (exec impl (stepThread impl c i) (List.replicate m1 i)) (List.replicate m2 i) := by
      rw [← exec_append, List.replicate_append_replicate]; rfl
    refine ⟨m1 + m2 + 1, by rw [e1]; exact b1, by rw [e1]; exact b2, ?_⟩
    intro j hj
    rw [e1, b3 j hj, a4 j hj, e]
    exact put_ne c hj _
  -- from between two calls
  have idle : ∀ (todo : List κ) (c : Conf σ ρ ι κ), c.lock = none → (c.th i).todo = todo → (c.th i).cur = none →
      ∃ m, (exec impl c (List.replicate m i)).lock = none ∧ Finished (exec impl c (List.replicate m i)) i ∧
      ∀ j, j ≠ i → (exec impl c (List.replicate m i)).th j = c.th j := by
    intro todo
    induction todo with
    | nil => intro c hl ht hk; exact ⟨0, hl, ⟨hk, ht⟩, fun _ _ => rfl⟩
    | cons k ks ih =>
      intro c hl ht hk
      have e : stepThread impl c i = c.put i { c.th i with cur := some (k, impl k), todo := ks } := by
        unfold stepThread; rw [hk]; dsimp only; rw [ht]
      obtain ⟨m, h1, h2, h3⟩ := beg ks ih (stepThread impl c i) (by rw [e]; exact hl) (by rw [e, put_self])
        ⟨k, by rw [e, put_self]⟩
      exact ⟨m + 1, h1, h2, fun j hj => (h3 j hj).trans (by rw [e]; exact put_ne c hj _)⟩
  intro todo c hl ht hk
  rcases hk with hk | hk | hk
  · exact idle todo c hl ht hk
  · exact beg todo (idle todo) c hl ht hk
  · exact ret todo (idle todo) c hl ht hk

/-- From every reachable configuration all threads of a list can finish. -/
theorem all_finish {impl body : κ → Cmd σ ρ} (himpl : ∀ k, impl k = synchronized (body k))
    (hb : ∀ k, Balanced 0 (body k)) {prog : ι → List κ} {s0 : σ} (ts : List ι) :
    ∀ {c : Conf σ ρ ι κ} {log : List (ι × κ × ρ)}, Inv impl prog s0 c log →
    ∃ sched, (exec impl c sched).lock = none ∧ ∀ i ∈ ts, Finished (exec impl c sched) i := by
  have free : ∀ (c : Conf σ ρ ι κ) (log : List (ι × κ × ρ)), Inv impl prog s0 c log →
      ∃ sched, (exec impl c sched).lock = none := by
    intro c log h
    cases hc : c.lock with
    | none => exact ⟨[], hc⟩
    | some jn =>
      obtain ⟨j, n⟩ := jn
      obtain ⟨s1, _, hl⟩ := h.ex
      rw [hc] at hl
      obtain ⟨k, p, a1, a2, _⟩ := hl
      obtain ⟨m, b1, _⟩ := owner_finishes impl j k p n c hc a1 a2
      exact ⟨_, b1⟩
  induction ts with
  | nil => intro c log h; obtain ⟨s, hs⟩ := free c log h; exact ⟨s, hs, by simp⟩
  | cons i ts ih =>
    intro c log h
    obtain ⟨s1, l1, f1⟩ := ih h
    obtain ⟨log1, h1⟩ := h.exec himpl hb s1
    have ho := h1.out i (by rw [l1]; simp)
    have hk : ((exec impl c s1).th i).cur = none ∨ (∃ k, ((exec impl c s1).th i).cur = some (k, impl k)) ∨
        ∃ k r, ((exec impl c s1).th i).cur = some (k, .ret r) := by
      rcases ho with ⟨a, _, _⟩ | ⟨k, a, _, _⟩ | ⟨k, r, a, _, _⟩
      · exact .inl a
      · exact .inr (.inl ⟨k, a⟩)
      · exact .inr (.inr ⟨k, r, a⟩)
    obtain ⟨m, l2, f2, o2⟩ := thread_finishes himpl hb i _ _ l1 rfl hk
    refine ⟨s1 ++ List.replicate m i, by rw [exec_append]; exact l2, ?_⟩
    intro j hj
    rw [exec_append]
    by_cases hji : j = i
    · subst hji; exact f2
    · have := f1 j ((List.mem_cons.1 hj).resolve_left hji)
      unfold Finished at this ⊢
      rw [o2 j hji]; exact this

end Verif.Threads
