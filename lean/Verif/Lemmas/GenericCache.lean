import Verif.Model.GenericCache
import Verif.Lemmas.LRUStock
import Verif.Spec.LRU

set_option linter.unusedSectionVars false

namespace Verif.GenericCache
open Verif Verif.Spec
variable {ν : Type}

/-- The cache holds the entries of the specification. -/
structure CRep (c : Cache ν) (l : LRU ν) : Prop where
  limit : c.maxsize = l.limit
  expiry : c.expiry = l.expiry
  wf : c.values.WF
  look : ∀ k, c.values.get? k = (l.find k).map fun e => (e.val, e.time)
  rep : LRUStock.Rep c.lru (l.entries.map CacheEntry.key)

theorem find_isSome (l : LRU ν) (k : String) : (l.find k).isSome ↔ k ∈ l.entries.map CacheEntry.key := by
  unfold LRU.find
  rw [List.find?_isSome]
  simp

theorem CRep.nodup {c : Cache ν} {l : LRU ν} (h : CRep c l) : (l.entries.map CacheEntry.key).Nodup := h.rep.nodup

theorem CRep.keys {c : Cache ν} {l : LRU ν} (h : CRep c l) :
    c.values.keys.Perm (l.entries.map CacheEntry.key) := by
  rw [List.perm_ext_iff_of_nodup h.wf h.nodup]
  intro k
  rw [AD.mem_keys_iff, h.look, Option.isSome_map, find_isSome]

theorem CRep.length {c : Cache ν} {l : LRU ν} (h : CRep c l) : c.values.length = l.entries.length := by
  have := h.keys.length_eq
  simpa [AD.keys] using this

theorem CRep.has {c : Cache ν} {l : LRU ν} (h : CRep c l) (k : String) :
    c.values.has k = true ↔ k ∈ l.entries.map CacheEntry.key := by
  unfold AD.has
  rw [h.look, Option.isSome_map, find_isSome]

theorem find_filter (es : List (CacheEntry ν)) (k k' : String) :
    (es.filter fun e => e.key ≠ k).find? (fun e => e.key = k') =
      if k' = k then none else es.find? (fun e => e.key = k') := by
  induction es with
  | nil => simp
  | cons e es ih =>
    rw [List.filter_cons]
    by_cases h : e.key = k
    · simp only [h, ne_eq, not_true_eq_false, decide_false, Bool.false_eq_true, if_false]
      rw [ih, List.find?_cons]
      by_cases hk : k' = k
      · simp [hk]
      · have : ¬ k = k' := fun h => hk h.symm
        simp [hk, h, this]
    · simp only [h, ne_eq, not_false_eq_true, decide_true, if_true, List.find?_cons]
      rw [ih]
      by_cases hk : k' = k
      · subst hk; simp [h]
      · simp [hk]

theorem filter_keys (es : List (CacheEntry ν)) (k : String) :
    (es.filter fun e => e.key ≠ k).map CacheEntry.key = (es.map CacheEntry.key).filter (fun x => x ≠ k) := by
  rw [List.filter_map]; rfl

theorem CRep.remove {c : Cache ν} {l : LRU ν} (h : CRep c l) (k : String) : CRep (remove c k) (l.remove k) := by
  unfold GenericCache.remove
  split
  · refine ⟨h.limit, h.expiry, h.wf.del k, ?_, ?_⟩
    · intro k'
      dsimp only
      rw [AD.get?_del, h.look]
      unfold LRU.find LRU.remove LRU.without
      dsimp only
      rw [find_filter]
      split <;> simp
    · dsimp only [LRU.remove, LRU.without]
      rw [filter_keys]
      exact h.rep.discard k
  · rename_i hk
    rw [h.has] at hk
    have : l.remove k = l := by
      unfold LRU.remove LRU.without
      have : l.entries.filter (fun e => decide (e.key ≠ k)) = l.entries := by
        rw [List.filter_eq_self]
        intro e he
        simp only [decide_eq_true_eq]
        rintro rfl; exact hk (List.mem_map.2 ⟨e, he, rfl⟩)
      rw [this]
    rw [this]; exact h

theorem remove_expiry (c : Cache ν) (k : String) : (remove c k).expiry = c.expiry := by
  unfold remove; split <;> rfl

theorem CRep.old {c : Cache ν} {l : LRU ν} (h : CRep c l) (e : CacheEntry ν) (now : ℚ) :
    hasExpired c (e.val, e.time) now = true ↔ l.old e now := by
  unfold hasExpired LRU.old
  rw [h.expiry]; simp

theorem CRep.fetch {c : Cache ν} {l : LRU ν} (h : CRep c l) (k : String) (fail : Option Bool) (now : ℚ) :
    CRep (fetch c k fail now).1 (l.fetch k now).1 ∧
    (fetch c k fail now).2 = match (l.fetch k now).2 with
      | some v => .ok (some v)
      | none => if fail.getD c.defaultFail then .error .keyError else .ok none := by
  unfold GenericCache.fetch LRU.fetch
  rw [h.look]
  cases hf : l.find k with
  | none => exact ⟨h, rfl⟩
  | some e =>
    simp only [Option.map_some]
    by_cases ho : l.old e now
    · rw [if_pos ((h.old e now).2 ho)]
      simp only [ho, if_true]
      exact ⟨h.remove k, trivial⟩
    · rw [if_neg (fun hc => ho ((h.old e now).1 hc))]
      simp only [ho, if_false]
      refine ⟨⟨h.limit, h.expiry, h.wf, ?_, ?_⟩, trivial⟩
      · intro k'
        dsimp only
        rw [h.look]
        unfold LRU.find LRU.without
        dsimp only
        rw [List.find?_append, find_filter]
        have hek : e.key = k := by
          unfold LRU.find at hf
          simpa using List.find?_some hf
        by_cases hk : k' = k
        · subst hk
          unfold LRU.find at hf
          simp [hf, hek]
        · have : ¬ k = k' := fun h => hk h.symm
          simp [hk, hek, this]
      · dsimp only [LRU.without]
        have hek : e.key = k := by
          unfold LRU.find at hf
          simpa using List.find?_some hf
        rw [List.map_append, filter_keys, List.map_singleton, hek]
        exact h.rep.update k

theorem CRep.store {c : Cache ν} {l : LRU ν} (h : CRep c l) (k : String) (v : ν) (now : ℚ)
    (hk : k ∉ l.entries.map CacheEntry.key) :
    CRep (store c k v now) { l with entries := l.entries ++ [⟨k, v, now⟩] } := by
  refine ⟨h.limit, h.expiry, h.wf.set k _, ?_, ?_⟩
  · intro k'
    unfold GenericCache.store
    dsimp only
    rw [AD.get?_set, h.look]
    unfold LRU.find
    dsimp only
    rw [List.find?_append]
    by_cases hk' : k' = k
    · subst hk'
      have : l.entries.find? (fun e => decide (e.key = k')) = none := by
        rw [List.find?_eq_none]
        intro e he hc
        simp only [decide_eq_true_eq] at hc
        exact hk (List.mem_map.2 ⟨e, he, hc⟩)
      simp [this]
    · have : ¬ k = k' := fun h => hk' h.symm
      simp [hk', this]
  · simp only [List.map_append, List.map_singleton]
    exact h.rep.add k hk

theorem CRep.shrink {c : Cache ν} {l : LRU ν} (h : CRep c l) (nb fuel : Nat) (hnb : nb ≤ 1)
    (hf : l.entries.length < fuel) : ∃ c', shrink fuel nb c = .ok c' ∧ CRep c' (l.evict nb) ∧
      c'.defaultFail = c.defaultFail := by
  unfold GenericCache.shrink LRU.evict
  by_cases hm : c.maxsize = 0
  · have : l.limit = 0 := by rw [← h.limit, hm]
    exact ⟨c, by simp [hm], by simpa [this] using h, rfl⟩
  · have hl : l.limit ≠ 0 := by rw [← h.limit]; exact hm
    simp only [ne_eq, hm, not_false_eq_true, if_true, hl, if_false]
    apply Py.whileLoop_inv
      (cond := fun c : Cache ν => .ok (decide (c.values.length + nb > c.maxsize))) (body := shrinkBody)
      (P := fun c' => ∃ d, d ≤ l.entries.length + nb - l.limit ∧
        CRep c' { l with entries := l.entries.drop d } ∧ c'.defaultFail = c.defaultFail)
      (μ := fun c' => c'.values.length)
      (Q := fun c' => CRep c' { l with entries := l.entries.drop (l.entries.length + nb - l.limit) } ∧
        c'.defaultFail = c.defaultFail) ?_ fuel c ⟨0, by omega, by simpa using h, rfl⟩ (by rw [h.length]; exact hf)
    · rintro c' ⟨d, hd, hr, hdf⟩
      have hlen := hr.length
      have hlim : c'.maxsize = l.limit := hr.limit
      simp only [List.length_drop] at hlen
      by_cases hc : c'.values.length + nb > c'.maxsize
      · right
        refine ⟨by simp [hc], _, rfl, ?_, ?_⟩
        · obtain ⟨e0, rest, hes⟩ : ∃ e0 rest, l.entries.drop d = e0 :: rest := by
            cases hes : l.entries.drop d with
            | nil =>
              have : l.entries.length ≤ d := List.drop_eq_nil_iff.1 hes
              omega
            | cons e0 rest => exact ⟨e0, rest, rfl⟩
          refine ⟨d + 1, by omega, ?_, ?_⟩
          · have hpop := hr.rep.pop
            simp only [hes, List.map_cons, List.head?_cons] at hpop
            rw [hpop]
            have hrem := hr.remove e0.key
            have hnd := hr.nodup
            simp only [hes, List.map_cons, List.nodup_cons] at hnd
            have e : ({ l with entries := l.entries.drop d } : LRU ν).remove e0.key =
                { l with entries := l.entries.drop (d + 1) } := by
              unfold LRU.remove LRU.without
              have e2 : l.entries.drop (d + 1) = rest := by
                rw [← List.drop_drop, hes]; simp
              have : (l.entries.drop d).filter (fun e => decide (e.key ≠ e0.key)) = rest := by
                rw [hes, List.filter_cons]
                simp only [ne_eq, not_true_eq_false, decide_false, Bool.false_eq_true, if_false]
                rw [List.filter_eq_self]
                intro e he
                simp only [decide_eq_true_eq]
                intro hc; exact hnd.1 (hc ▸ List.mem_map.2 ⟨e, he, rfl⟩)
              simp only [this, e2]
            rw [e] at hrem
            exact hrem
          · rw [← hdf]; unfold GenericCache.remove; split <;> rfl
        · have hpop := hr.rep.pop
          obtain ⟨e0, rest, hes⟩ : ∃ e0 rest, l.entries.drop d = e0 :: rest := by
            cases hes : l.entries.drop d with
            | nil =>
              have : l.entries.length ≤ d := List.drop_eq_nil_iff.1 hes
              omega
            | cons e0 rest => exact ⟨e0, rest, rfl⟩
          simp only [hes, List.map_cons, List.head?_cons] at hpop
          have hmem : e0.key ∈ c'.values.keys := by
            rw [hr.keys.mem_iff]; simp [hes]
          have hhas : c'.values.has e0.key = true := by
            rw [AD.mem_keys_iff] at hmem; exact hmem
          have : (GenericCache.remove c' e0.key).values = c'.values.del e0.key := by
            unfold GenericCache.remove; rw [if_pos hhas]
          rw [hpop]
          dsimp only [Option.getD_some]
          rw [this]
          unfold AD.del
          rw [List.length_filter_lt_length_iff_exists]
          obtain ⟨x, hx, hxe⟩ := List.mem_map.1 hmem
          exact ⟨x, hx, by simp [hxe]⟩
      · left
        refine ⟨by simp [hc], ?_, hdf⟩
        have : d = l.entries.length + nb - l.limit := by omega
        rw [← this]; exact hr

theorem CRep.insert {c : Cache ν} {l : LRU ν} (h : CRep c l) (k : String) (v : ν) (now : ℚ) (fuel : Nat)
    (hk : k ∉ l.entries.map CacheEntry.key) (hf : l.entries.length < fuel) :
    ∃ c', insert fuel c k v now = .ok c' ∧ CRep c' (l.insert k v now) ∧ c'.defaultFail = c.defaultFail := by
  obtain ⟨c1, e1, e2, e3⟩ := h.shrink 1 fuel (le_refl _) hf
  have hh : ¬ c.values.has k = true := fun hc => hk ((h.has k).1 hc)
  have hk' : k ∉ (l.evict 1).entries.map CacheEntry.key := by
    unfold LRU.evict
    split
    · exact hk
    · intro hc
      obtain ⟨e, he, hek⟩ := List.mem_map.1 hc
      exact hk (List.mem_map.2 ⟨e, List.mem_of_mem_drop he, hek⟩)
  exact ⟨GenericCache.store c1 k v now, by simp [GenericCache.insert, hh, e1], e2.store k v now hk', e3⟩

theorem CRep.clear {c : Cache ν} {l : LRU ν} (h : CRep c l) : CRep (clear c) { l with entries := [] } := by
  refine ⟨h.limit, h.expiry, AD.WF.nil, ?_, h.rep.clear⟩
  intro k; simp [GenericCache.clear, LRU.find]

theorem CRep.collect {c : Cache ν} {l : LRU ν} (h : CRep c l) (now : ℚ) : CRep (collect c now) (l.collect now) := by
  -- fold over the keys, removing what is too old
  have key : ∀ (ks : List String) (c' : Cache ν) (l' : LRU ν), CRep c' l' → l'.expiry = l.expiry → ks.Nodup →
      CRep (ks.foldl (collectBody now) c')
        { l' with entries := l'.entries.filter fun e => ¬ (e.key ∈ ks ∧ l.old e now) } := by
    intro ks
    induction ks with
    | nil =>
      intro c' l' h' _ _
      have : l'.entries.filter (fun e => decide (¬ (e.key ∈ ([] : List String) ∧ l.old e now))) = l'.entries := by
        rw [List.filter_eq_self]; simp
      rw [this]; exact h'
    | cons k ks ih =>
      intro c' l' h' he hnd
      rw [List.nodup_cons] at hnd
      rw [List.foldl_cons]
      have hold : ∀ e, l'.old e now ↔ l.old e now := by intro e; unfold LRU.old; rw [he]
      have hbody : CRep (collectBody now c' k)
          { l' with entries := l'.entries.filter fun e => ¬ (e.key = k ∧ l.old e now) } := by
        unfold collectBody
        rw [h'.look]
        have huniq : ∀ e e', e ∈ l'.entries → e' ∈ l'.entries → e.key = e'.key → e = e' := by
          intro e e' h1 h2 h3
          exact List.inj_on_of_nodup_map h'.nodup h1 h2 h3
        cases hf : l'.find k with
        | none =>
          have hno : ∀ e ∈ l'.entries, e.key ≠ k := by
            unfold LRU.find at hf
            rw [List.find?_eq_none] at hf
            intro e he hc; exact hf e he (by simp [hc])
          have : l'.entries.filter (fun e => decide (¬ (e.key = k ∧ l.old e now))) = l'.entries := by
            rw [List.filter_eq_self]; intro e he; simp [hno e he]
          rw [this]; exact h'
        | some e0 =>
          have hm : e0 ∈ l'.entries := List.mem_of_find?_eq_some hf
          have hek : e0.key = k := by
            unfold LRU.find at hf
            simpa using List.find?_some hf
          simp only [Option.map_some]
          by_cases ho : l'.old e0 now
          · rw [if_pos ((h'.old e0 now).2 ho)]
            have hr := h'.remove k
            have : l'.entries.filter (fun e => decide (¬ (e.key = k ∧ l.old e now))) = l'.without k := by
              unfold LRU.without
              apply List.filter_congr
              intro e he
              by_cases hk : e.key = k
              · have := huniq e e0 he hm (hk.trans hek.symm)
                subst this
                simp [hk, (hold e).1 ho]
              · simp [hk]
            rw [this]; exact hr
          · rw [if_neg (fun hc => ho ((h'.old e0 now).1 hc))]
            have : l'.entries.filter (fun e => decide (¬ (e.key = k ∧ l.old e now))) = l'.entries := by
              rw [List.filter_eq_self]
              intro e he
              by_cases hk : e.key = k
              · have := huniq e e0 he hm (hk.trans hek.symm)
                subst this
                have : ¬ l.old e now := fun hc => ho ((hold e).2 hc)
                simp [this]
              · simp [hk]
            rw [this]; exact h'
      have := ih _ _ hbody he hnd.2
      dsimp only at this
      rw [List.filter_filter] at this
      convert this using 3
      funext e
      rw [← Bool.decide_and]
      congr 1
      apply propext
      simp only [List.mem_cons]
      tauto
  have := key c.values.keys c l h rfl h.wf
  have e : l.entries.filter (fun e => decide (¬ (e.key ∈ c.values.keys ∧ l.old e now))) =
      l.entries.filter (fun e => decide (¬ l.old e now)) := by
    apply List.filter_congr
    intro e he
    have : e.key ∈ c.values.keys := by rw [h.keys.mem_iff]; exact List.mem_map.2 ⟨e, he, rfl⟩
    simp [this]
  rw [e] at this
  exact this

theorem CRep.reconfigure {c : Cache ν} {l : LRU ν} (h : CRep c l) (m : Nat) (x : ℚ) (fuel : Nat)
    (hf : l.entries.length < fuel) :
    ∃ c', reconfigure fuel c m x = .ok c' ∧ CRep c' (LRU.evict ⟨m, x, l.entries⟩ 0) ∧
      c'.defaultFail = c.defaultFail := by
  have h' : CRep { c with maxsize := m, expiry := x } ⟨m, x, l.entries⟩ := ⟨rfl, rfl, h.wf, h.look, h.rep⟩
  exact h'.shrink 0 fuel (by omega) hf

theorem CRep.empty (m : Nat) (x : ℚ) (fl : Bool) : CRep (empty m x fl : Cache ν) ⟨m, x, []⟩ :=
  ⟨rfl, rfl, AD.WF.nil, by intro k; simp [GenericCache.empty, LRU.find], LRUStock.Rep.empty⟩

end Verif.GenericCache
