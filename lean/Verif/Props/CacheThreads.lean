import Verif.Lemmas.CacheThreads
import Verif.Props.GenericCache

/-! Property C62: threads that share a GenericCache (lib/daeso/thirdparty/GenericCache). -/
namespace Verif.Props.CacheThreads
open Verif Verif.Threads Verif.GenericCache Verif.CacheThreads Verif.Spec Verif.Spec.Threads

variable {ν ι : Type} [DecidableEq ι]

/-- C62, for any object: if all methods are `synchronized` and their bodies use the lock in balance, then whatever the
schedule, the calls completed so far have the results they have when they are made one after the other in some order `log`
that respects the order within each thread; as long as no call is under way, the object is in the state those calls
lead to; and the order is never revised later (so a call that ended before another began comes before it). -/
theorem synchronized_serialises {σ ρ κ : Type} (body : κ → Cmd σ ρ) (hb : ∀ k, Balanced 0 (body k))
    (s0 : σ) (prog : ι → List κ) (sched more : List ι) :
    ∃ log log' : List (ι × κ × ρ),
      (let impl := fun k => synchronized (body k)
       let c := exec impl (start s0 prog) sched
       let c' := exec impl (start s0 prog) (sched ++ more)
       (∃ s, Serial impl s0 log s ∧ (c.lock = none → c.st = s)) ∧
       (∃ s, Serial impl s0 (log ++ log') s ∧ (c'.lock = none → c'.st = s)) ∧
       (∀ i, (c.th i).done <+: callsOf log i ∧ (callsOf log i).map Prod.fst <+: prog i ∧
         (c.th i).todo <:+ (prog i).drop (callsOf log i).length) ∧
       (∀ i, (c'.th i).done <+: callsOf (log ++ log') i ∧ (callsOf (log ++ log') i).map Prod.fst <+: prog i ∧
         (c'.th i).todo <:+ (prog i).drop (callsOf (log ++ log') i).length)) := by
  have hi := Inv.start (fun k => synchronized (body k)) prog s0
  obtain ⟨log, h1⟩ := hi.exec (fun _ => rfl) hb sched
  rw [List.nil_append] at h1
  obtain ⟨log', h2⟩ := h1.exec (fun _ => rfl) hb more
  rw [← exec_append] at h2
  have key : ∀ (c : Conf σ ρ ι κ) (l : List (ι × κ × ρ)), Inv (fun k => synchronized (body k)) prog s0 c l →
      (∃ s, Serial (fun k => synchronized (body k)) s0 l s ∧ (c.lock = none → c.st = s)) ∧
      ∀ i, (c.th i).done <+: callsOf l i ∧ (callsOf l i).map Prod.fst <+: prog i ∧
        (c.th i).todo <:+ (prog i).drop (callsOf l i).length := by
    intro c l h
    obtain ⟨s1, hs, hl⟩ := h.ex
    refine ⟨⟨s1, hs, fun hc => by rw [hc] at hl; exact hl⟩, fun i => ?_⟩
    by_cases hown : ∀ n, c.lock ≠ some (i, n)
    · rcases h.out i hown with ⟨_, a2, a3⟩ | ⟨k, _, a2, a3⟩ | ⟨k, r, _, a2, a3⟩
      · rw [a2, a3]
        exact ⟨List.prefix_rfl, List.prefix_append _ _, by simp⟩
      · rw [a2, a3]
        exact ⟨List.prefix_rfl, List.prefix_append _ _, by simp⟩
      · have a3' : prog i = ((c.th i).done ++ [(k, r)]).map Prod.fst ++ (c.th i).todo := by simp [a3]
        rw [a2, a3']
        exact ⟨List.prefix_append _ _, List.prefix_append _ _, by rw [List.drop_left' (by simp)]⟩
    · push Not at hown
      obtain ⟨n, hn⟩ := hown
      rw [hn] at hl
      obtain ⟨k, p, _, _, _, a2, a3⟩ := hl
      rw [a2, a3]
      exact ⟨List.prefix_rfl, List.prefix_append _ _, by simp⟩
  exact ⟨log, log', (key _ _ h1).1, (key _ _ h2).1, (key _ _ h1).2, (key _ _ h2).2⟩

/-- C62: there is no deadlock.  From whatever point a schedule has led to, all threads can still finish. -/
theorem synchronized_progress {σ ρ κ : Type} (body : κ → Cmd σ ρ) (hb : ∀ k, Balanced 0 (body k))
    (s0 : σ) (prog : ι → List κ) (sched threads : List ι) :
    ∃ more, ∀ i ∈ threads,
      Finished (exec (fun k => synchronized (body k)) (start s0 prog) (sched ++ more)) i := by
  obtain ⟨log, h1⟩ := (Inv.start (fun k => synchronized (body k)) prog s0).exec (fun _ => rfl) hb sched
  obtain ⟨more, _, h2⟩ := all_finish (fun _ => rfl) hb threads h1
  exact ⟨more, fun i hi => by rw [exec_append]; exact h2 i hi⟩

/-- C62: when all threads have finished, every thread has made all its calls, and their results and the final state are those
of making the calls one after the other in some order. -/
theorem synchronized_finished {σ ρ κ : Type} (body : κ → Cmd σ ρ) (hb : ∀ k, Balanced 0 (body k))
    (s0 : σ) (prog : ι → List κ) (sched : List ι)
    (hfin : ∀ i, Finished (exec (fun k => synchronized (body k)) (start s0 prog) sched) i) :
    ∃ log : List (ι × κ × ρ),
      Serial (fun k => synchronized (body k)) s0 log (exec (fun k => synchronized (body k)) (start s0 prog) sched).st ∧
      (∀ i, callsOf log i = ((exec (fun k => synchronized (body k)) (start s0 prog) sched).th i).done) ∧
      ∀ i, (callsOf log i).map Prod.fst = prog i := by
  obtain ⟨log, h⟩ := (Inv.start (fun k => synchronized (body k)) prog s0).exec (fun _ => rfl) hb sched
  rw [List.nil_append] at h
  have hlock : (exec (fun k => synchronized (body k)) (start s0 prog) sched).lock = none := by
    cases hc : (exec (fun k => synchronized (body k)) (start s0 prog) sched).lock with
    | none => rfl
    | some jn =>
      obtain ⟨s1, _, hl⟩ := h.ex
      rw [hc] at hl
      obtain ⟨k, p, a, _⟩ := hl
      rw [(hfin jn.1).1] at a
      simp at a
  have hth : ∀ i, callsOf log i = ((exec (fun k => synchronized (body k)) (start s0 prog) sched).th i).done ∧
      (callsOf log i).map Prod.fst = prog i := by
    intro i
    rcases h.out i (by rw [hlock]; simp) with ⟨_, a2, a3⟩ | ⟨k, a1, _, _⟩ | ⟨k, r, a1, _, _⟩
    · rw [(hfin i).2] at a3
      exact ⟨a2, by rw [a2, a3]; simp⟩
    · rw [(hfin i).1] at a1; simp at a1
    · rw [(hfin i).1] at a1; simp at a1
  obtain ⟨s1, hs, hl⟩ := h.ex
  rw [hlock] at hl
  have hl' : (exec (fun k => synchronized (body k)) (start s0 prog) sched).st = s1 := hl
  exact ⟨log, by rw [hl']; exact hs, fun i => (hth i).1, fun i => (hth i).2⟩

/-- The calls of a log are made one after the other by the sequential model of the cache. -/
private theorem serial_run (fuel : Nat) : ∀ {c : Cache ν} {log : List (ι × CacheOp ν × Py (Option ν))} {s : Cache ν},
    Serial (opImpl fuel) c log s → c.values.WF → ∀ {c' : Cache ν} {os : List (Py (Option ν))},
    GenericCache.run fuel c (log.map fun e => e.2.1) = .ok (c', os) → s = c' ∧ log.map (fun e => e.2.2) = os := by
  intro c log s h
  induction h with
  | nil s =>
    intro _ c' os hr
    simp only [List.map_nil, GenericCache.run, Except.ok.injEq, Prod.mk.injEq] at hr
    exact ⟨hr.1, by simpa using hr.2⟩
  | call s i k log s' h ih =>
    intro hw c' os hr
    simp only [List.map_cons, GenericCache.run] at hr
    cases hs : GenericCache.step fuel s k with
    | error e => rw [hs] at hr; simp at hr
    | ok r =>
      obtain ⟨c1, o⟩ := r
      rw [hs] at hr
      dsimp only at hr
      cases hr2 : GenericCache.run fuel c1 (log.map fun e => e.2.1) with
      | error e => rw [hr2] at hr; simp at hr
      | ok r2 =>
        obtain ⟨c2, os2⟩ := r2
        rw [hr2] at hr
        simp only [Except.ok.injEq, Prod.mk.injEq] at hr
        have ha := alone_op hw hs
        rw [ha] at ih ⊢
        obtain ⟨e1, e2⟩ := ih (wf_step hw hs) hr2
        exact ⟨e1.trans hr.1, by simp only [List.map_cons, e2]; exact hr.2⟩

/-- C62, for the cache: when all threads have finished, their results and the final contents are those of the modelled
sequential cache for the calls in some order (unless in that order the cache itself loops, C25). -/
theorem cache_serialisable (fuel m : Nat) (x : ℚ) (fl : Bool) (prog : ι → List (CacheOp ν)) (sched : List ι)
    (hfin : ∀ i, Finished (exec (opImpl fuel) (start (GenericCache.empty m x fl) prog) sched) i) :
    ∃ log : List (ι × CacheOp ν × Py (Option ν)),
      (∀ i, callsOf log i = ((exec (opImpl fuel) (start (GenericCache.empty m x fl) prog) sched).th i).done) ∧
      (∀ i, (callsOf log i).map Prod.fst = prog i) ∧
      ∀ c os, GenericCache.run fuel (GenericCache.empty m x fl) (log.map fun e => e.2.1) = .ok (c, os) →
        (exec (opImpl fuel) (start (GenericCache.empty m x fl) prog) sched).st = c ∧ log.map (fun e => e.2.2) = os := by
  obtain ⟨log, hs, h1, h2⟩ := synchronized_finished (opBody fuel) (bal_opBody fuel) (GenericCache.empty m x fl) prog sched hfin
  exact ⟨log, h1, h2, fun c os hr => serial_run fuel hs (by simp [GenericCache.empty, AD.WF, AD.keys]) hr⟩

/-- There are schedules in which all threads finish: here one inserts while the other fetches twice, from any point on. -/
example (sched : List Bool) : ∃ more, ∀ i, Finished (exec (opImpl 3) (start (GenericCache.empty 1 0 false : Cache Nat)
    fun i : Bool => if i then [.insert "a" 7 0] else [.fetch "a" none 1, .fetch "b" none 2]) (sched ++ more)) i := by
  obtain ⟨more, h⟩ := synchronized_progress (opBody 3) (bal_opBody 3) (GenericCache.empty 1 0 false : Cache Nat)
    (fun i : Bool => if i then [.insert "a" 7 0] else [.fetch "a" none 1, .fetch "b" none 2]) sched [true, false]
  exact ⟨more, fun i => h i (by cases i <;> simp)⟩

/-- C62, for memoised functions (decorators.py:18-31, 47-61): threads that call a memoised function through one cache, while
others remove, clear, collect and reconfigure, always get the value of the function, at every point of every schedule. -/
theorem memo_threads [Fintype ι] {α : Type} (key : α → String) (f : α → ν) (hkey : ∀ a b, key a = key b → f a = f b)
    (m : Nat) (x : ℚ) (prog : ι → List (MemoOp α)) (fuel : Nat) (hf : ∑ i, (prog i).length < fuel) (sched : List ι)
    (i : ι) (a : α) (t t' : ℚ) (r : Py (Option ν))
    (h : (MemoOp.call a t t', r) ∈ ((exec (memoImpl key f fuel) (start (GenericCache.empty m x false) prog) sched).th i).done) :
    r = .ok (some (f a)) := by
  obtain ⟨log, hI⟩ := (Inv.start (memoImpl key f fuel) prog (GenericCache.empty m x false)).exec
    (impl := memoImpl key f fuel) (body := memoBody key f fuel) (fun _ => rfl) (bal_memoBody key f fuel) sched
  rw [List.nil_append] at hI
  have hth := hI.prefixes
  have hlen : log.length < fuel := by
    rw [length_log log]
    refine lt_of_le_of_lt (Finset.sum_le_sum fun j _ => ?_) hf
    have := (hth j).2.length_le
    simpa using this
  obtain ⟨s1, hs, _⟩ := hI.ex
  obtain ⟨c, hr⟩ := GenericCache.memo_transparent key f hkey m x (log.map fun e => e.2.1) fuel (by simpa using hlen)
  have hres := serial_memo key f fuel hs (by simp [GenericCache.empty, AD.WF, AD.keys]) hr
  exact memo_values f log hres i a t t' r (mem_callsOf.1 ((hth i).1.subset h))

/-- Two threads that call a memoised function while a third clears the cache, interleaved in any way: there is a schedule
after which the calls have been made. -/
example (sched : List (Fin 3)) : ∃ (more : List (Fin 3)) (r : Py (Option Nat)), (MemoOp.call "xy" 0 1, r) ∈ ((exec (memoImpl id String.length 9)
    (start (GenericCache.empty 1 0 false) fun i : Fin 3 => if i = 2 then [.clear] else [.call "xy" 0 1, .call "z" 2 3])
    (sched ++ more)).th 0).done := by
  obtain ⟨more, h⟩ := synchronized_progress (memoBody id String.length 9) (bal_memoBody id String.length 9)
    (GenericCache.empty 1 0 false) (fun i : Fin 3 => if i = 2 then [.clear] else [.call "xy" 0 1, .call "z" 2 3]) sched [0, 1, 2]
  obtain ⟨log, _, h1, h2⟩ := synchronized_finished (memoBody id String.length 9) (bal_memoBody id String.length 9)
    (GenericCache.empty 1 0 false) (fun i : Fin 3 => if i = 2 then [.clear] else [.call "xy" 0 1, .call "z" 2 3]) (sched ++ more)
    (fun i => h i (by revert i; decide))
  have := h2 0
  rw [h1 0] at this
  have hm : MemoOp.call "xy" 0 1 ∈ (((exec (memoImpl id String.length 9) (start (GenericCache.empty 1 0 false)
      fun i : Fin 3 => if i = 2 then [.clear] else [.call "xy" 0 1, .call "z" 2 3]) (sched ++ more)).th 0).done).map Prod.fst := by
    refine this ▸ ?_
    simp
  obtain ⟨⟨k, r⟩, hr, rfl⟩ := List.mem_map.1 hm
  exact ⟨more, r, hr⟩

/-- Membership tests are not synchronized (GenericCache.py:199-204) and see the cache in the middle of a call: with room for
one entry, while "b" replaces "a", a second thread can find that neither is in the cache; no order of the calls gives these
answers. -/
theorem contains_not_serialisable (v w : ν) :
    let c := GenericCache.store (GenericCache.empty 1 0 false : Cache ν) "a" v 0
    (∃ sched, ((exec (callImpl 3) (start c fun i : Bool =>
        if i then [.contains "a", .contains "b"] else [.op (.insert "b" w 1)]) sched).th true).done =
      [(.contains "a", .bool false), (.contains "b", .bool false)]) ∧
    ∀ (log : List (Bool × Call ν × Result ν)) (s : Cache ν), Serial (callImpl 3) c log s →
      (callsOf log false).map Prod.fst = [.op (.insert "b" w 1)] →
      callsOf log true ≠ [(.contains "a", .bool false), (.contains "b", .bool false)] := by
  refine ⟨⟨[false] ++ List.replicate 19 false ++ List.replicate 6 true, ?_⟩, ?_⟩
  · obtain ⟨l, p, s, h1, h2, h3⟩ := interrupted v w
    generalize GenericCache.store (GenericCache.empty 1 0 false : Cache ν) "a" v 0 = c at h1
    have := exec_between 3 19 (.op (.insert "b" w 1)) "a" "b" (start c fun i : Bool =>
        if i then [.contains "a", .contains "b"] else [.op (.insert "b" w 1)]) rfl rfl rfl h1
    rw [h2, h3] at this
    exact this
  intro log s hs hf ht
  exact no_order v w log s hs hf ht

end Verif.Props.CacheThreads
