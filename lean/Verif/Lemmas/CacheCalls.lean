import Verif.Lemmas.CacheKey
import Verif.Spec.CacheKey

/-! Lemmas for C87: sequences of memoised calls. -/
set_option linter.unusedSectionVars false
namespace Verif.CacheKey
open Verif Verif.GenericCache Verif.Spec Verif.Spec.CacheKey

variable {ν : Type}

theorem call_taken {fuel : Nat} {c : Cache ν} {x : Call ν} {t t' : ℚ} (h : Taken x) :
    call fuel c x t t' = .ok (c, .error .typeError, false) := by
  unfold call
  by_cases h1 : x.kwargs.any (fun e => e.1 = bytes "func") = true
  · rw [if_pos h1]
  · rw [if_neg h1]
    dsimp only
    rw [if_pos ?_]
    obtain ⟨e, he, hm⟩ := h
    simp only [List.mem_cons, List.not_mem_nil, or_false] at hm
    rw [List.any_eq_true]
    refine ⟨e, he, ?_⟩
    rcases hm with hm | hm | hm | hm
    · exact absurd (List.any_eq_true.2 ⟨e, he, by simpa using hm⟩) h1
    all_goals simp [hm]

/-- The key of a call. -/
def keyOf (x : Call ν) : String := key x.func.name x.args x.kwargs

theorem keyOf_iff {x y : Call ν} : keyOf x = keyOf y ↔ Same x y := by
  constructor
  · exact key_inj
  · rintro ⟨h1, h2, h3⟩
    unfold keyOf
    rw [h1, h2, h3]

theorem without_absent {l : LRU ν} {k : String} (h : l.find k = none) : l.without k = l.entries := by
  unfold LRU.without
  rw [List.filter_eq_self]
  intro e he
  have := List.find?_eq_none.1 h e he
  simpa using this

/-- The rest of a call after the look-up. -/
def after (fuel : Nat) (x : Call ν) (t' : ℚ) (r : Cache ν × Py (Option ν)) : Py (Cache ν × Py ν × Bool) :=
  match r with
  | (c, .error e) => .ok (c, .error e, false)
  | (c, .ok (some v)) => .ok (c, .ok v, false)
  | (c, .ok none) => match x.func.run x.args x.kwargs with
    | .error e => .ok (c, .error e, true)
    | .ok v => do .ok (← insert fuel c (keyOf x) v t', .ok v, true)

theorem call_after {fuel : Nat} {c : Cache ν} {x : Call ν} {t t' : ℚ} (hx : ¬ Taken x) :
    call fuel c x t t' = after fuel x t' (fetch c (keyOf x) none t) := by
  have e1 : ¬ x.kwargs.any (fun e => e.1 = bytes "func") = true := fun h => by
    obtain ⟨e, he, hm⟩ := List.any_eq_true.1 h
    exact hx ⟨e, he, by simp at hm; simp [hm]⟩
  have e2 : ¬ x.kwargs.any (fun e => e.1 = bytes "self" || e.1 = bytes "key" || e.1 = bytes "generator") = true := fun h => by
    obtain ⟨e, he, hm⟩ := List.any_eq_true.1 h
    refine hx ⟨e, he, ?_⟩
    simp only [Bool.or_eq_true, decide_eq_true_eq] at hm
    rcases hm with (hm | hm) | hm <;> simp [hm]
  unfold call
  rw [if_neg e1]
  dsimp only
  rw [if_neg e2]
  rfl

theorem call_step {fuel : Nat} {c : Cache ν} {l : LRU ν} (hr : CRep c l) (hdf : c.defaultFail = false) (hlen : l.entries.length < fuel)
    {x : Call ν} (t t' : ℚ) (hx : ¬ Taken x) :
    ∃ c' l', CRep c' l' ∧ c'.defaultFail = false ∧ l'.entries.length ≤ l.entries.length + 1 ∧ l'.limit = l.limit ∧ l'.expiry = l.expiry ∧
      ((∃ e ∈ l.entries, e.key = keyOf x ∧ call fuel c x t t' = .ok (c', .ok e.val, false) ∧ l'.entries = l.without (keyOf x) ++ [e] ∧ ¬ l.old e t) ∨
       (∀ e ∈ l.entries, e.key = keyOf x → l.old e t) ∧ call fuel c x t t' = .ok (c', x.func.run x.args x.kwargs, true) ∧
        l' = match x.func.run x.args x.kwargs with
          | .error _ => { l with entries := l.without (keyOf x) }
          | .ok v => ({ l with entries := l.without (keyOf x) } : LRU ν).insert (keyOf x) v t') := by
  rw [call_after hx]
  have h1 := hr.fetch (keyOf x) none t
  have h2 := fetch_defaultFail c (keyOf x) none t
  generalize hF : fetch c (keyOf x) none t = F at h1 h2
  obtain ⟨c1, r⟩ := F
  dsimp only at h1 h2
  have hwl : (l.without (keyOf x)).length ≤ l.entries.length := (List.filter_sublist).length_le
  have miss : (l.fetch (keyOf x) t) = ({ l with entries := l.without (keyOf x) }, none) →
      (∀ e ∈ l.entries, e.key = keyOf x → l.old e t) →
      ∃ c' l', CRep c' l' ∧ c'.defaultFail = false ∧ l'.entries.length ≤ l.entries.length + 1 ∧ l'.limit = l.limit ∧ l'.expiry = l.expiry ∧
      ((∃ e ∈ l.entries, e.key = keyOf x ∧ after fuel x t' (c1, r) = .ok (c', .ok e.val, false) ∧
          l'.entries = l.without (keyOf x) ++ [e] ∧ ¬ l.old e t) ∨
       (∀ e ∈ l.entries, e.key = keyOf x → l.old e t) ∧ after fuel x t' (c1, r) =
          .ok (c', x.func.run x.args x.kwargs, true) ∧
        l' = match x.func.run x.args x.kwargs with
          | .error _ => { l with entries := l.without (keyOf x) }
          | .ok v => ({ l with entries := l.without (keyOf x) } : LRU ν).insert (keyOf x) v t') := by
    intro hm hold
    rw [hm] at h1
    obtain ⟨hr1, hres⟩ := h1
    simp only [Option.getD_none, hdf, Bool.false_eq_true, if_false] at hres
    subst hres
    unfold after
    dsimp only
    cases hrun : x.func.run x.args x.kwargs with
    | error e => exact ⟨c1, _, hr1, h2.trans hdf, by dsimp only; omega, rfl, rfl, .inr ⟨hold, rfl, rfl⟩⟩
    | ok v =>
      have habs : keyOf x ∉ (l.without (keyOf x)).map CacheEntry.key := by
        unfold LRU.without
        rw [filter_keys]
        simp
      obtain ⟨c2, g1, g2, g3⟩ := hr1.insert (keyOf x) v t' fuel habs (by dsimp only; omega)
      refine ⟨c2, _, g2, g3.trans (h2.trans hdf), ?_, ?_, ?_, .inr ⟨hold, ?_, rfl⟩⟩
      · have h3 := step_length ({ l with entries := l.without (keyOf x) } : LRU ν) (.insert (keyOf x) v t')
        simp only [LRU.step] at h3
        dsimp only at h3 ⊢
        omega
      · unfold LRU.insert LRU.evict
        dsimp only
        split <;> rfl
      · unfold LRU.insert LRU.evict
        dsimp only
        split <;> rfl
      · simp only [bind, Except.bind]
        rw [g1]
  cases hfi : l.find (keyOf x) with
  | none =>
    refine miss ?_ ?_
    · unfold LRU.fetch
      rw [hfi]
      dsimp only
      rw [without_absent hfi]
    · intro e he hk
      have := List.find?_eq_none.1 hfi e he
      exact absurd hk (by simpa using this)
  | some e =>
    have hek : e.key = keyOf x := by
      unfold LRU.find at hfi
      simpa using List.find?_some hfi
    have hem : e ∈ l.entries := List.mem_of_find?_eq_some hfi
    by_cases ho : l.old e t
    · refine miss ?_ ?_
      · unfold LRU.fetch
        rw [hfi]
        dsimp only
        rw [if_pos ho]
      · intro e' he' hk
        have hnd := hr.nodup
        have : e' = e := List.inj_on_of_nodup_map hnd he' hem (hk.trans hek.symm)
        rw [this]
        exact ho
    · have hf : l.fetch (keyOf x) t = ({ l with entries := l.without (keyOf x) ++ [e] }, some e.val) := by
        unfold LRU.fetch
        rw [hfi]
        dsimp only
        rw [if_neg ho]
      rw [hf] at h1
      obtain ⟨hr1, hres⟩ := h1
      dsimp only at hres
      subst hres
      exact ⟨c1, _, hr1, h2.trans hdf, by simp; omega, rfl, rfl, .inl ⟨e, hem, hek, rfl, rfl, ho⟩⟩

theorem find_without (l : LRU ν) (k k' : String) :
    (l.without k).find? (fun e => decide (e.key = k')) = if k' = k then none else l.find k' := by
  unfold LRU.without LRU.find
  rw [List.find?_filter]
  split
  · rename_i h
    subst h
    rw [List.find?_eq_none]
    intro e _
    by_cases h : e.key = k' <;> simp [h]
  · rename_i h
    congr 1
    funext e
    by_cases h' : e.key = k'
    · subst h'
      simp [h]
    · simp [h']

end Verif.CacheKey
