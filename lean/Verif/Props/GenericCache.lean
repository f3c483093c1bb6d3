import Verif.Lemmas.CacheRun

/-! Properties C23 to C26 (lib/daeso/thirdparty/GenericCache). -/
namespace Verif.Props.GenericCache
open Verif Verif.Spec Verif.GenericCache

variable {ν : Type}

/-- C23.  After every terminating history, re-inserts included, a cache with a size limit holds at most that
many entries. -/
theorem cache_size_bounded (fuel m : Nat) (x : ℚ) (fl : Bool) (ops : List (CacheOp ν)) (c : Cache ν)
    (os : List (Py (Option ν))) (h : run fuel (empty m x fl) ops = .ok (c, os)) (hm : c.maxsize ≠ 0) :
    size c ≤ c.maxsize :=
  Within.run (c := empty m x fl) (fun _ => by simp [empty]) h hm

/-- The limit in force is the one given to the constructor or to the last `reconfigure`. -/
theorem cache_limit (fuel m : Nat) (x : ℚ) (fl : Bool) (ops : List (CacheOp ν)) (c : Cache ν)
    (os : List (Py (Option ν))) (h : run fuel (empty m x fl) ops = .ok (c, os))
    (hr : ∀ op ∈ ops, ∀ m' x', op ≠ .reconfigure m' x') : c.maxsize = m := by
  have key : ∀ (ops : List (CacheOp ν)) (c0 c : Cache ν) (os : List (Py (Option ν))),
      run fuel c0 ops = .ok (c, os) → (∀ op ∈ ops, ∀ m' x', op ≠ .reconfigure m' x') →
      c.maxsize = c0.maxsize := by
    intro ops
    induction ops with
    | nil =>
      intro c0 c os h _
      simp only [GenericCache.run, Except.ok.injEq, Prod.mk.injEq] at h
      rw [h.1]
    | cons op ops ih =>
      intro c0 c os h hr
      simp only [GenericCache.run] at h
      split at h
      · simp at h
      · rename_i c1 o h1
        split at h
        · simp at h
        · rename_i c2 os2 h2
          simp only [Except.ok.injEq, Prod.mk.injEq] at h
          have hc1 : c1.maxsize = c0.maxsize := by
            cases op with
            | insert k v t =>
              simp only [step] at h1
              split at h1
              · rename_i c3 hc3
                simp only [Except.ok.injEq, Prod.mk.injEq] at h1
                rw [← h1.1]
                unfold GenericCache.insert at hc3
                split at hc3
                · simp only [Except.ok.injEq] at hc3
                  rw [← hc3]; rfl
                · split at hc3
                  · rename_i c4 hc4
                    simp only [Except.ok.injEq] at hc3
                    rw [← hc3]; exact (shrink_partial hc4).1
                  · simp at hc3
              · simp at h1
            | fetch k fail t =>
              simp only [step, Except.ok.injEq] at h1
              have : c1 = (fetch c0 k fail t).1 := by rw [h1]
              rw [this]
              unfold fetch
              dsimp only
              split
              · rfl
              · split
                · exact remove_maxsize _ _
                · rfl
            | remove k =>
              simp only [step, Except.ok.injEq, Prod.mk.injEq] at h1
              rw [← h1.1, remove_maxsize]
            | clear =>
              simp only [step, Except.ok.injEq, Prod.mk.injEq] at h1
              rw [← h1.1]; rfl
            | collect t =>
              simp only [step, Except.ok.injEq, Prod.mk.injEq] at h1
              rw [← h1.1, (collect_length c0 t).2]
            | reconfigure m' x' => exact absurd rfl (hr _ (by simp) m' x')
          rw [← h.1, ih c1 c2 os2 h2 (fun op hm => hr op (by simp [hm])), hc1]
  exact key ops _ c os h hr

example : ∃ c os, run 9 (empty 2 0 false) [.insert "a" 1 0, .insert "a" 2 1, .insert "b" 3 2] = .ok (c, os) ∧
    size c = (2 : Nat) ∧ c.maxsize = 2 := ⟨_, _, rfl, by decide +kernel, rfl⟩

/-- C24, C25.  For histories that insert no key present at that moment: every operation terminates, the callers
see what the specified least-recently-used cache shows them, and the state agrees with it: same values, same
size, and the list of keys from least to most recently used. -/
theorem cache_refines (m : Nat) (x : ℚ) (fl : Bool) (ops : List (CacheOp ν)) (fuel : Nat)
    (hf : ops.length < fuel) (hn : (⟨m, x, []⟩ : LRU ν).NoReinsert ops) :
    ∃ c, run fuel (empty m x fl) ops =
        .ok (c, List.zipWith (seen fl) ops ((⟨m, x, []⟩ : LRU ν).observe ops)) ∧
      (∀ k, c.values.get? k =
        (((⟨m, x, []⟩ : LRU ν).after ops).find k).map fun e => (e.val, e.time)) ∧
      size c = ((⟨m, x, []⟩ : LRU ν).after ops).entries.length ∧
      LRUStock.toList fuel c.lru =
        .ok (((⟨m, x, []⟩ : LRU ν).after ops).entries.map fun e => some e.key) := by
  obtain ⟨c, e1, e2, e3⟩ := (CRep.empty m x fl : CRep _ (⟨m, x, []⟩ : LRU ν)).run ops fuel
    (by simp; omega) hn
  refine ⟨c, e1, e2.look, e2.length, ?_⟩
  have hlen : ∀ (ops : List (CacheOp ν)) (l : LRU ν), (l.after ops).entries.length ≤ l.entries.length + ops.length := by
    intro ops
    induction ops with
    | nil => intro l; simp [LRU.after]
    | cons op ops ih =>
      intro l
      have h1 := step_length l op
      have h2 := ih (l.step op).1
      simp only [LRU.after, List.foldl_cons, List.length_cons] at h2 ⊢
      omega
  have hl := hlen ops (⟨m, x, []⟩ : LRU ν)
  simp only [List.length_nil, Nat.zero_add] at hl
  obtain ⟨ids, h1, h2, h3, h4, h5⟩ := e2.rep.ids
  have h6 := congrArg List.length h4
  simp only [List.length_map] at h6
  unfold LRUStock.toList
  rw [LRUStock.toListFrom_ok fuel ids 0 (by omega) h1 (fun a ha => by have := (h3 a ha).1; omega), h4,
    List.map_map]
  rfl

/-- C24.  In such a history, every value in the cache is the one of the last insert of its key, and the keys are
stored in the order of their last use (insert or fetch). -/
theorem cache_recency_order (m : Nat) (x : ℚ) (fl : Bool) (ops : List (CacheOp ν)) (fuel : Nat)
    (hf : ops.length < fuel) (hn : (⟨m, x, []⟩ : LRU ν).NoReinsert ops) :
    ∃ (c : Cache ν) (os : List (Py (Option ν))) (ks : List String), run fuel (empty m x fl) ops = .ok (c, os) ∧
      (∀ k r, c.values.get? k = some r → lastInsert k ops = some r) ∧
      LRUStock.toList fuel c.lru = .ok (ks.map some) ∧
      (∀ k, k ∈ ks ↔ (c.values.get? k).isSome) ∧
      ks.Pairwise fun a b => lastUse a ops < lastUse b ops := by
  obtain ⟨c, h1, h2, h3, h4⟩ := cache_refines m x fl ops fuel hf hn
  have ho := Ordered.after (past := []) (l := (⟨m, x, []⟩ : LRU ν)) ⟨by simp, by simp⟩ ops hn
  refine ⟨c, _, ((⟨m, x, []⟩ : LRU ν).after ops).entries.map CacheEntry.key, h1, ?_, ?_, ?_, ?_⟩
  · intro k r hr
    rw [h2] at hr
    obtain ⟨e, he, rfl⟩ := Option.map_eq_some_iff.1 hr
    have hm : e ∈ ((⟨m, x, []⟩ : LRU ν).after ops).entries := List.mem_of_find?_eq_some he
    have hek : e.key = k := by
      unfold LRU.find at he
      simpa using List.find?_some he
    have := ho.2 e hm
    rw [hek] at this
    simpa using this
  · rw [h4, List.map_map]; rfl
  · intro k; rw [h2, Option.isSome_map, find_isSome]
  · rw [List.pairwise_map]
    simpa using ho.1

/-- C24.  When an insert evicts a key and keeps another one, the evicted key was used less recently. -/
theorem cache_evicts_least_recent (m : Nat) (x : ℚ) (fl : Bool) (ops : List (CacheOp ν)) (k : String) (v : ν)
    (t : ℚ) (fuel : Nat) (hf : ops.length + 1 < fuel)
    (hn : (⟨m, x, []⟩ : LRU ν).NoReinsert (ops ++ [.insert k v t])) :
    ∃ c c' os os', run fuel (empty m x fl) ops = .ok (c, os) ∧
      run fuel (empty m x fl) (ops ++ [.insert k v t]) = .ok (c', os') ∧
      (∀ a b, (c.values.get? a).isSome → c'.values.get? a = none → (c'.values.get? b).isSome → b ≠ k →
        lastUse a ops < lastUse b ops) ∧
      (c.maxsize = 0 ∨ size c < c.maxsize → ∀ a, (c.values.get? a).isSome → (c'.values.get? a).isSome) := by
  have hsplit : ∀ (ops : List (CacheOp ν)) (op : CacheOp ν) (l : LRU ν), l.NoReinsert (ops ++ [op]) →
      l.NoReinsert ops ∧ (match op with
        | .insert k _ _ => (l.after ops).find k = none
        | _ => True) := by
    intro ops op
    induction ops with
    | nil => intro l h; exact ⟨trivial, by cases op <;> simpa [LRU.after] using h.1⟩
    | cons o ops ih =>
      intro l h
      have := ih _ h.2
      exact ⟨⟨h.1, this.1⟩, by cases op <;> simpa [LRU.after] using this.2⟩
  have hn' := hsplit ops _ _ hn
  obtain ⟨c, h1, h2, h3, h4⟩ := cache_refines m x fl ops fuel (by omega) hn'.1
  obtain ⟨c', g1, g2, g3, g4⟩ := cache_refines m x fl _ fuel (by simp; omega) hn
  obtain ⟨c0, e1, e2, e3⟩ := (CRep.empty m x fl : CRep _ (⟨m, x, []⟩ : LRU ν)).run ops fuel
    (by simp; omega) hn'.1
  have hc0 : c0 = c := by rw [h1] at e1; simp only [Except.ok.injEq, Prod.mk.injEq] at e1; exact e1.1.symm
  subst hc0
  have ho := Ordered.after (past := []) (l := (⟨m, x, []⟩ : LRU ν)) ⟨by simp, by simp⟩ ops hn'.1
  have haft : (⟨m, x, []⟩ : LRU ν).after (ops ++ [.insert k v t]) =
      ((⟨m, x, []⟩ : LRU ν).after ops).insert k v t := by
    unfold LRU.after; rw [List.foldl_append]; rfl
  refine ⟨c0, c', _, _, h1, g1, ?_, ?_⟩
  · intro a b ha hna hb hbk
    rw [h2, Option.isSome_map, find_isSome] at ha
    rw [g2, Option.isSome_map, find_isSome, haft] at hb
    have hna' : a ∉ (((⟨m, x, []⟩ : LRU ν).after ops).insert k v t).entries.map CacheEntry.key := by
      rw [← find_isSome, ← haft]
      rw [g2, Option.map_eq_none_iff] at hna
      rw [hna]; simp
    generalize (⟨m, x, []⟩ : LRU ν).after ops = l at *
    simp only [LRU.insert, List.map_append, List.map_cons, List.map_nil, List.mem_append, List.mem_cons,
      List.not_mem_nil, or_false, not_or] at hb hna'
    have hb' := hb.resolve_right hbk
    unfold LRU.evict at hb' hna'
    split at hb'
    · rename_i hl
      rw [if_pos hl] at hna'
      exact absurd ha hna'.1
    · rename_i hl
      rw [if_neg hl] at hna'
      dsimp only at hb' hna'
      have hspl := List.take_append_drop (l.entries.length + 1 - l.limit) l.entries
      have ho1 := ho.1
      rw [← hspl, List.pairwise_append] at ho1
      obtain ⟨ea, hea, rfl⟩ := List.mem_map.1 ha
      obtain ⟨eb, heb, rfl⟩ := List.mem_map.1 hb'
      have hmem : ea ∈ l.entries.take (l.entries.length + 1 - l.limit) := by
        rw [← hspl, List.mem_append] at hea
        rcases hea with h | h
        · exact h
        · exact absurd (List.mem_map.2 ⟨ea, h, rfl⟩) hna'.1
      have := ho1.2.2 ea hmem eb heb
      simpa using this
  · intro hroom a ha
    rw [h2, Option.isSome_map, find_isSome] at ha
    rw [g2, Option.isSome_map, find_isSome, haft]
    have hlim := e2.limit
    rw [h3] at hroom
    generalize (⟨m, x, []⟩ : LRU ν).after ops = l at *
    simp only [LRU.insert, List.map_append, List.mem_append]
    left
    unfold LRU.evict
    split
    · exact ha
    · rename_i hl
      have : l.entries.length + 1 - l.limit = 0 := by omega
      rw [this, List.drop_zero]; exact ha

/-- C24.  A key just inserted is still fetched with its value as long as nothing is removed or reconfigured,
entries do not expire, and fewer than `maxsize` other keys are used after it. -/
theorem cache_retains (m : Nat) (fl : Bool) (ops since : List (CacheOp ν)) (k : String) (v : ν)
    (t t' : ℚ) (fail : Option Bool) (fuel : Nat) (hf : ops.length + since.length + 2 < fuel)
    (hr : ∀ op ∈ ops, ∀ m' x', op ≠ .reconfigure m' x')
    (hu : OnlyUses since) (hc : m ≠ 0 → (otherKeys k since).card < m)
    (hn : (⟨m, 0, []⟩ : LRU ν).NoReinsert (ops ++ .insert k v t :: since)) :
    ∃ c os, run fuel (empty m 0 fl) (ops ++ .insert k v t :: since) = .ok (c, os) ∧
      (fetch c k fail t').2 = .ok (some v) := by
  obtain ⟨c, e1, e2, e3⟩ := (CRep.empty m 0 fl : CRep _ (⟨m, 0, []⟩ : LRU ν)).run _ fuel
    (by simp; omega) hn
  refine ⟨c, _, e1, ?_⟩
  have hsplit : ∀ (ops ops' : List (CacheOp ν)) (l : LRU ν), l.NoReinsert (ops ++ ops') →
      l.NoReinsert ops ∧ (l.after ops).NoReinsert ops' := by
    intro ops ops'
    induction ops with
    | nil => intro l h; exact ⟨trivial, h⟩
    | cons o ops ih =>
      intro l h
      have := ih _ h.2
      exact ⟨⟨h.1, this.1⟩, this.2⟩
  obtain ⟨hn1, hn2⟩ := hsplit _ _ _ hn
  obtain ⟨c1, f1, f2, f3⟩ := (CRep.empty m 0 fl : CRep _ (⟨m, 0, []⟩ : LRU ν)).run ops fuel
    (by simp; omega) hn1
  have hlimit : ∀ (ops : List (CacheOp ν)) (l : LRU ν), (∀ op ∈ ops, ∀ m' x', op ≠ .reconfigure m' x') →
      (l.after ops).limit = l.limit ∧ (l.after ops).expiry = l.expiry := by
    intro ops
    induction ops with
    | nil => intro l _; exact ⟨rfl, rfl⟩
    | cons o ops ih =>
      intro l h
      have h1 := ih (l.step o).1 (fun op hm => h op (by simp [hm]))
      have h2 : (l.step o).1.limit = l.limit ∧ (l.step o).1.expiry = l.expiry := by
        cases o with
        | insert k v t => simp only [LRU.step, LRU.insert, LRU.evict]; split <;> exact ⟨rfl, rfl⟩
        | fetch k fail t =>
          simp only [LRU.step, LRU.fetch]
          split
          · exact ⟨rfl, rfl⟩
          · split <;> exact ⟨rfl, rfl⟩
        | remove _ => exact ⟨rfl, rfl⟩
        | clear => exact ⟨rfl, rfl⟩
        | collect _ => exact ⟨rfl, rfl⟩
        | reconfigure m' x' => exact absurd rfl (h _ (by simp) m' x')
      simp only [LRU.after, List.foldl_cons] at h1 ⊢
      exact ⟨h1.1.trans h2.1, h1.2.trans h2.2⟩
  have hl := hlimit ops (⟨m, 0, []⟩ : LRU ν) hr
  have haft : (⟨m, 0, []⟩ : LRU ν).after (ops ++ .insert k v t :: since) =
      (((⟨m, 0, []⟩ : LRU ν).after ops).insert k v t).after since := by
    unfold LRU.after; rw [List.foldl_append]; rfl
  obtain ⟨c2, g1, g2, g3⟩ := f2.step (.insert k v t) fuel (by
    have : ∀ (ops : List (CacheOp ν)) (l : LRU ν), (l.after ops).entries.length ≤ l.entries.length + ops.length := by
      intro ops
      induction ops with
      | nil => intro l; simp [LRU.after]
      | cons op ops ih =>
        intro l
        have h1 := step_length l op
        have h2 := ih (l.step op).1
        simp only [LRU.after, List.foldl_cons, List.length_cons] at h2 ⊢
        omega
    have := this ops (⟨m, 0, []⟩ : LRU ν)
    simp only [List.length_nil] at this
    omega) hn2.1
  have hkept : Kept k v m [] (((⟨m, 0, []⟩ : LRU ν).after ops).insert k v t) := by
    have hlen := g2.length
    have hin : Within c2 := by
      have hw : Within c1 := Within.run (c := empty m 0 fl) (fun _ => by simp [empty]) f1
      exact hw.step g1
    have hlim := g2.limit
    refine ⟨?_, ?_, ?_, g2.nodup, (((⟨m, 0, []⟩ : LRU ν).after ops).evict 1).entries, ⟨k, v, t⟩, [], rfl, rfl, rfl, by simp⟩
    · have : (((⟨m, 0, []⟩ : LRU ν).after ops).insert k v t).limit = ((⟨m, 0, []⟩ : LRU ν).after ops).limit := by
        unfold LRU.insert LRU.evict; split <;> rfl
      rw [this, hl.1]
    · have : (((⟨m, 0, []⟩ : LRU ν).after ops).insert k v t).expiry = ((⟨m, 0, []⟩ : LRU ν).after ops).expiry := by
        unfold LRU.insert LRU.evict; split <;> rfl
      rw [this, hl.2]
    · intro h0
      have h1 : (((⟨m, 0, []⟩ : LRU ν).after ops).insert k v t).limit = m := by
        have : (((⟨m, 0, []⟩ : LRU ν).after ops).insert k v t).limit = ((⟨m, 0, []⟩ : LRU ν).after ops).limit := by
          unfold LRU.insert LRU.evict; split <;> rfl
        rw [this, hl.1]
      have h2 : c2.maxsize = m := hlim.trans h1
      have h3 := hin (by rw [h2]; exact h0)
      rw [hlen, h2] at h3
      exact h3
  have hfin := hkept.after since hu hn2.2 (by simpa using hc)
  rw [← haft] at hfin
  obtain ⟨_, h2, _, h4, A, e, B, h5, h6, h7, _⟩ := hfin
  have hfind : ((⟨m, 0, []⟩ : LRU ν).after (ops ++ .insert k v t :: since)).find k = some e := by
    have hm : e ∈ ((⟨m, 0, []⟩ : LRU ν).after (ops ++ .insert k v t :: since)).entries := by rw [h5]; simp
    have hs : (((⟨m, 0, []⟩ : LRU ν).after (ops ++ .insert k v t :: since)).find k).isSome := by
      rw [find_isSome]; exact List.mem_map.2 ⟨e, hm, h6⟩
    obtain ⟨e', he'⟩ := Option.isSome_iff_exists.1 hs
    have hm' := List.mem_of_find?_eq_some he'
    have hk' : e'.key = k := by
      unfold LRU.find at he'
      simpa using List.find?_some he'
    rw [he', List.inj_on_of_nodup_map h4 hm' hm (hk'.trans h6.symm)]
  rw [(e2.fetch k fail t').2]
  have hold : ¬ ((⟨m, 0, []⟩ : LRU ν).after (ops ++ .insert k v t :: since)).old e t' := by
    unfold LRU.old; rw [h2]; simp
  simp [LRU.fetch, hfind, hold, h7]

/-- The hypotheses are met by a history with an eviction, a fetch that saves a key, and an expiry time. -/
example : (⟨2, 10, []⟩ : LRU Nat).NoReinsert
    [.insert "a" 1 0, .insert "b" 2 1, .fetch "a" none 2, .insert "c" 3 3, .insert "b" 4 4] := by
  simp only [LRU.NoReinsert, LRU.step, and_true, true_and]
  decide +kernel

example : (LRU.after (⟨2, 10, []⟩ : LRU Nat)
    [.insert "a" 1 0, .insert "b" 2 1, .fetch "a" none 2, .insert "c" 3 3]).entries.map CacheEntry.key =
    ["a", "c"] := by decide +kernel

/-- C25.  The cache can loop forever: with room for one entry, insert a key twice and then another one.  The
insert never ends, whatever the budget. -/
theorem cache_insert_diverges (v1 v2 v3 : ν) (t1 t2 t3 : ℚ) (x : ℚ) (fl : Bool) :
    ∃ c os, run 2 (empty 1 x fl) [.insert "a" v1 t1, .insert "a" v2 t2, .insert "b" v3 t3] = .ok (c, os) ∧
      ∀ fuel v t, insert fuel c "c" v t = .error .fuel := by
  have hc : ∃ c os, run 2 (empty 1 x fl) [.insert "a" v1 t1, .insert "a" v2 t2, .insert "b" v3 t3] = .ok (c, os) ∧
      c.values.has "c" = false ∧ c.maxsize = 1 ∧ remove c ((LRUStock.pop c.lru).getD "None") = c ∧
      c.values.length = 1 := ⟨_, _, rfl, rfl, rfl, rfl, rfl⟩
  obtain ⟨c, os, h1, h2, h3, h4, h5⟩ := hc
  refine ⟨c, os, h1, ?_⟩
  intro fuel v t
  have hloop : ∀ (fuel : Nat) (c : Cache ν), remove c ((LRUStock.pop c.lru).getD "None") = c →
      c.values.length + 1 > c.maxsize →
      Py.whileLoop (fun c : Cache ν => .ok (decide (c.values.length + 1 > c.maxsize))) shrinkBody fuel c =
        .error .fuel := by
    intro fuel
    induction fuel with
    | zero => intro c _ _; rfl
    | succ n ih =>
      intro c h1 h2
      simp only [Py.whileLoop, h2, decide_true, shrinkBody, h1]
      exact ih c h1 h2
  unfold GenericCache.insert
  rw [if_neg (by simp [h2])]
  unfold shrink
  rw [if_pos (by simp [h3]), hloop fuel c h4 (by omega)]

/-- C26.  A memoised function returns what the function returns, and always returns: for every marshaller whose
keys determine the value, every sequence of calls with any clock, mixed with removals, clearing, collection and
reconfiguration. -/
theorem memo_transparent {α : Type} (key : α → String) (f : α → ν)
    (hkey : ∀ a b, key a = key b → f a = f b) (m : Nat) (x : ℚ) (ops : List (MemoOp α)) (fuel : Nat)
    (hf : ops.length < fuel) :
    ∃ c, memoRun key f fuel (empty m x false) ops =
      .ok (c, ops.filterMap fun op => match op with
        | .call a _ _ => some (.ok (f a))
        | _ => none) := by
  have hgood : ∀ (ops : List (MemoOp α)) (c : Cache ν) (l : LRU ν), CRep c l → c.defaultFail = false →
      l.entries.length + ops.length ≤ fuel → (∀ e ∈ l.entries, ∀ a, key a = e.key → e.val = f a) →
      ∃ c', memoRun key f fuel c ops =
        .ok (c', ops.filterMap fun op => match op with
          | .call a _ _ => some (.ok (f a))
          | _ => none) := by
    intro ops
    induction ops with
    | nil => intro c l _ _ _ _; exact ⟨c, rfl⟩
    | cons op ops ih =>
      intro c l hr hdf hlen hval
      simp only [List.length_cons] at hlen
      have hstep : ∃ c1 l1, memoStep key f fuel c op = .ok (c1, (match op with
            | .call a _ _ => some (.ok (f a))
            | _ => none)) ∧ CRep c1 l1 ∧ c1.defaultFail = false ∧ l1.entries.length ≤ l.entries.length + 1 ∧
          ∀ e ∈ l1.entries, ∀ a, key a = e.key → e.val = f a := by
        have hmono : ∀ (es : List (CacheEntry ν)), es ⊆ l.entries →
            ∀ e ∈ es, ∀ a, key a = e.key → e.val = f a := fun es hs e he => hval e (hs he)
        cases op with
        | call a t t' =>
          have h1 := hr.fetch (key a) none t
          have h2 := fetch_defaultFail c (key a) none t
          simp only [memoStep, fetchWithGenerator]
          generalize fetch c (key a) none t = F at h1 h2 ⊢
          obtain ⟨c1, r⟩ := F
          dsimp only at h1 h2 ⊢
          cases hfe : (l.fetch (key a) t).2 with
          | some v =>
            have hres := h1.2
            rw [hfe] at hres
            refine ⟨c1, (l.fetch (key a) t).1, ?_, h1.1, h2.trans hdf,
              step_length l (.fetch (key a) none t), ?_⟩
            · have hv : v = f a := by
                unfold LRU.fetch at hfe
                cases hfi : l.find (key a) with
                | none => rw [hfi] at hfe; simp at hfe
                | some e0 =>
                  rw [hfi] at hfe
                  simp only at hfe
                  split at hfe
                  · simp at hfe
                  · simp only [Option.some.injEq] at hfe
                    have hk : e0.key = key a := by
                      unfold LRU.find at hfi
                      simpa using List.find?_some hfi
                    rw [← hfe]
                    exact hval e0 (List.mem_of_find?_eq_some hfi) a hk.symm
              rw [hres, hv]
            · intro e he
              unfold LRU.fetch at he
              cases hfi : l.find (key a) with
              | none => rw [hfi] at he; exact hval e he
              | some e0 =>
                rw [hfi] at he
                simp only at he
                split at he
                · exact hval e (List.mem_of_mem_filter he)
                · simp only [List.mem_append, List.mem_singleton] at he
                  rcases he with he | rfl
                  · exact hval e (List.mem_of_mem_filter he)
                  · exact hval e (List.mem_of_find?_eq_some hfi)
          | none =>
            have hres := h1.2
            rw [hfe] at hres
            simp only [Option.getD_none, hdf, Bool.false_eq_true, if_false] at hres
            -- the key is absent after a miss
            have hsub : ∃ es, (l.fetch (key a) t).1 = { l with entries := es } ∧ es.Sublist l.entries ∧
                key a ∉ es.map CacheEntry.key := by
              unfold LRU.fetch at hfe ⊢
              cases hfi : l.find (key a) with
              | none =>
                refine ⟨l.entries, rfl, List.Sublist.refl _, ?_⟩
                rw [← find_isSome, hfi]; simp
              | some e0 =>
                rw [hfi] at hfe
                simp only at hfe ⊢
                split
                · refine ⟨l.without (key a), rfl, List.filter_sublist, ?_⟩
                  unfold LRU.without
                  rw [filter_keys]; simp
                · rename_i ho
                  rw [if_neg ho] at hfe; simp at hfe
            obtain ⟨es, he1, he2, he3⟩ := hsub
            have hr1 := h1.1
            rw [he1] at hr1
            obtain ⟨c2, g1, g2, g3⟩ := hr1.insert (key a) (f a) t' fuel he3
              (by dsimp only; have := he2.length_le; omega)
            refine ⟨c2, _, ?_, g2, g3.trans (h2.trans hdf), ?_, ?_⟩
            · rw [hres]
              simp only [g1]
            · have h3 := step_length ({ l with entries := es } : LRU ν) (.insert (key a) (f a) t')
              have h4 := he2.length_le
              simp only [LRU.step] at h3
              omega
            · intro e0 he0 b hb
              simp only [LRU.insert, List.mem_append, List.mem_singleton] at he0
              rcases he0 with he0 | rfl
              · refine hval e0 (he2.subset ?_) b hb
                unfold LRU.evict at he0
                split at he0
                · exact he0
                · exact List.mem_of_mem_drop he0
              · exact (hkey _ _ hb).symm
        | remove k =>
          exact ⟨_, _, rfl, hr.remove k, (remove_defaultFail _ _).trans hdf,
            step_length l (.remove k), hmono _ List.filter_sublist.subset⟩
        | clear => exact ⟨_, _, rfl, hr.clear, hdf, by simp, by simp⟩
        | collect t =>
          exact ⟨_, _, rfl, hr.collect t, (collect_defaultFail _ _).trans hdf,
            step_length l (.collect t), hmono _ List.filter_sublist.subset⟩
        | reconfigure m x =>
          obtain ⟨c1, e1, e2, e3⟩ := hr.reconfigure m x fuel (by omega)
          refine ⟨c1, _, by simp [memoStep, e1], e2, e3.trans hdf, step_length l (.reconfigure m x), hmono _ ?_⟩
          unfold LRU.evict
          split
          · exact fun _ h => h
          · exact fun _ h => List.mem_of_mem_drop h
      obtain ⟨c1, l1, e1, e2, e3, e4, e5⟩ := hstep
      obtain ⟨c2, f1⟩ := ih c1 l1 e2 e3 (by omega) e5
      refine ⟨c2, ?_⟩
      simp only [memoRun, e1, f1]
      cases op <;> simp
  exact hgood ops _ _ (CRep.empty m x false) rfl (by simp; omega) (by simp)

/-- A marshaller and function that meet the hypothesis, with two arguments sharing a key. -/
example : ∀ a b : Nat, (fun n : Nat => if n % 2 = 0 then "even" else "odd") a =
    (fun n : Nat => if n % 2 = 0 then "even" else "odd") b → a % 2 = b % 2 := by
  intro a b h
  dsimp only at h
  split at h <;> split at h <;> first | omega | (simp at h)

/-- With `default_fail` the first memoised call raises KeyError instead of computing the value. -/
theorem memo_default_fail {α : Type} (key : α → String) (f : α → ν) (m : Nat) (x t t' : ℚ) (a : α) (fuel : Nat) :
    (fetchWithGenerator fuel (empty m x true) (key a) (f a) t t').2 = .error .keyError := rfl

end Verif.Props.GenericCache
