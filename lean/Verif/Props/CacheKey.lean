import Verif.Lemmas.CacheCalls

/-! C87: functions memoised with the default marshaller. -/
namespace Verif.Props.CacheKey
open Verif Verif.GenericCache Verif.CacheKey Verif.Spec Verif.Spec.CacheKey

variable {ν : Type}

/-- The key tells the call exactly: calls have the same key if and only if they have the same function name, the same positional
arguments and the same keyword arguments in the same order; 1 and True, 'a' and u'a', (1,) and [1] are different. -/
theorem key_exact (f g : Bytes) (a b : List Value) (k l : List (Bytes × Value)) :
    key f a k = key g b l ↔ f = g ∧ a = b ∧ k = l :=
  ⟨key_inj, by rintro ⟨rfl, rfl, rfl⟩; rfl⟩

private theorem run_answers {ops : List (Op ν)} (hname : ∀ x ∈ calls ops, ∀ y ∈ calls ops, x.func.name = y.func.name → x.func = y.func)
    {fuel : Nat} : ∀ {rest : List (Op ν)} {c : Cache ν} {l : LRU ν}, (∀ x ∈ calls rest, x ∈ calls ops) → CRep c l →
      c.defaultFail = false → l.entries.length + rest.length ≤ fuel →
      (∀ e ∈ l.entries, ∀ x ∈ calls ops, keyOf x = e.key → x.func.run x.args x.kwargs = .ok e.val) →
      ∃ c' rs, runOps fuel c rest = .ok (c', rs) ∧ rs.map Prod.fst = (calls rest).map answer
  | [], c, l, _, _, _, _, _ => ⟨c, [], rfl, rfl⟩
  | op :: rest, c, l, hsub, hr, hdf, hlen, hval => by
    rw [List.length_cons] at hlen
    have hrest : ∀ x ∈ calls rest, x ∈ calls ops := fun x hx => hsub x (by
      obtain ⟨o, ho, hx⟩ := List.mem_filterMap.1 hx
      exact List.mem_filterMap.2 ⟨o, List.mem_cons_of_mem _ ho, hx⟩)
    have go : ∀ {c1 : Cache ν} {l1 : LRU ν}, CRep c1 l1 → c1.defaultFail = false → l1.entries.length ≤ l.entries.length + 1 →
        (∀ e ∈ l1.entries, ∀ x ∈ calls ops, keyOf x = e.key → x.func.run x.args x.kwargs = .ok e.val) →
        ∀ r, CacheKey.step fuel c op = .ok (c1, r) → (∀ s : List (Py ν × Bool), s.map Prod.fst = (calls rest).map answer →
          (r.toList ++ s).map Prod.fst = (calls (op :: rest)).map answer) →
        ∃ c' rs, runOps fuel c (op :: rest) = .ok (c', rs) ∧ rs.map Prod.fst = (calls (op :: rest)).map answer := by
      intro c1 l1 h1 h2 h3 h4 r h5 h6
      obtain ⟨c', rs, h7, h8⟩ := run_answers hname (fuel := fuel) (rest := rest) (c := c1) (l := l1) hrest h1 h2 (by omega) h4
      refine ⟨c', r.toList ++ rs, ?_, h6 rs h8⟩
      rw [runOps]
      simp only [bind, Except.bind]
      rw [h5]
      dsimp only
      rw [h7]
    have hmono : ∀ es : List (CacheEntry ν), es ⊆ l.entries → ∀ e ∈ es, ∀ x ∈ calls ops, keyOf x = e.key →
        x.func.run x.args x.kwargs = .ok e.val := fun es hs e he => hval e (hs he)
    cases op with
    | call x t t' =>
      have hx : x ∈ calls ops := hsub x (by simp [calls])
      by_cases ht : Taken x
      · refine go hr hdf (by omega) hval (some (.error .typeError, false)) ?_ ?_
        · unfold CacheKey.step
          simp only [bind, Except.bind]
          rw [call_taken ht]
        · intro s hs
          simp only [Option.toList_some, List.singleton_append, List.map_cons, hs]
          show _ = answer x :: _
          rw [answer, if_pos ht]
          rfl
      · obtain ⟨c1, l1, h1, h2, h3, -, -, h4⟩ := call_step hr hdf (by omega : l.entries.length < fuel) t t' ht
        have hout : ∀ b, ∀ s : List (Py ν × Bool), s.map Prod.fst = (calls rest).map answer →
            ((some (x.func.run x.args x.kwargs, b)).toList ++ s).map Prod.fst = (calls (.call x t t' :: rest)).map answer := by
          intro b s hs
          simp only [Option.toList_some, List.singleton_append, List.map_cons, hs]
          show _ = answer x :: _
          rw [answer, if_neg ht]
          rfl
        rcases h4 with ⟨e, he, hk, h5, h6, -⟩ | ⟨-, h5, h6⟩
        · refine go h1 h2 h3 (hmono _ ?_) (some (.ok e.val, false)) ?_ ?_
          · rw [h6]
            intro e' he'
            rcases List.mem_append.1 he' with he' | he'
            · exact List.mem_of_mem_filter he'
            · rw [List.mem_singleton.1 he']
              exact he
          · unfold CacheKey.step
            simp only [bind, Except.bind]
            rw [h5]
          · rw [← hval e he x hx hk.symm]
            exact hout _
        · refine go h1 h2 h3 ?_ (some (x.func.run x.args x.kwargs, true)) ?_ (hout _)
          · intro e he y hy hky
            rcases hrun : x.func.run x.args x.kwargs with er | v
            · rw [hrun] at h6
              rw [h6] at he
              exact hval e (List.mem_of_mem_filter he) y hy hky
            · rw [hrun] at h6
              rw [h6] at he
              simp only [LRU.insert, List.mem_append, List.mem_singleton] at he
              rcases he with he | rfl
              · refine hval e ?_ y hy hky
                unfold LRU.evict at he
                split at he
                · exact List.mem_of_mem_filter he
                · exact List.mem_of_mem_filter (List.mem_of_mem_drop he)
              · obtain ⟨h7, h8, h9⟩ := keyOf_iff.1 hky
                rw [hname y hy x hx h7, h8, h9]
                exact hrun
          · unfold CacheKey.step
            simp only [bind, Except.bind]
            rw [h5]
    | remove k =>
      exact go (hr.remove k) ((remove_defaultFail _ _).trans hdf) (by have := step_length l (.remove k); simpa [LRU.step] using this)
        (hmono _ List.filter_sublist.subset) none rfl (fun s hs => by simpa [calls] using hs)
    | clear => exact go hr.clear hdf (by simp) (by simp) none rfl (fun s hs => by simpa [calls] using hs)
    | collect t =>
      exact go (hr.collect t) ((collect_defaultFail _ _).trans hdf) (by have := step_length l (.collect t); simpa [LRU.step] using this)
        (hmono _ List.filter_sublist.subset) none rfl (fun s hs => by simpa [calls] using hs)
    | reconfigure m x =>
      obtain ⟨c1, e1, e2, e3⟩ := hr.reconfigure m x fuel (by omega)
      refine go e2 (e3.trans hdf) (by have := step_length l (.reconfigure m x); simpa [LRU.step] using this) (hmono _ ?_) none ?_
        (fun s hs => by simpa [calls] using hs)
      · unfold LRU.evict
        split
        · exact fun _ h => h
        · exact fun _ h => List.mem_of_mem_drop h
      · unfold CacheKey.step
        simp only [bind, Except.bind]
        rw [e1]

/-- Memoisation is transparent: if the functions that share a cache have different names, then every call gives what the function gives,
also an exception, in every sequence of calls and other operations, with every size and age limit - but for keywords that are taken:
those are a TypeError. -/
theorem transparent (ops : List (Op ν)) (hname : ∀ x ∈ calls ops, ∀ y ∈ calls ops, x.func.name = y.func.name → x.func = y.func)
    (m : Nat) (e : ℚ) (fuel : Nat) (hf : ops.length ≤ fuel) :
    ∃ c rs, runOps fuel (empty m e false) ops = .ok (c, rs) ∧ rs.map Prod.fst = (calls ops).map answer :=
  run_answers hname (fuel := fuel) (rest := ops) (fun _ h => h) (CRep.empty m e false) rfl (by simpa using hf) (by simp)

/-- Functions of the same name that share a cache get each other's results: whatever the second function is, its call gives the result
of the first. -/
theorem same_name {x y : Call ν} (h : Same x y) (hx : ¬ Taken x) {v : ν} (hv : x.func.run x.args x.kwargs = .ok v) (m : Nat)
    (t t' s s' : ℚ) (fuel : Nat) (hf : 2 ≤ fuel) :
    ∃ c, runOps fuel (empty m 0 false) [.call x t t', .call y s s'] = .ok (c, [(.ok v, true), (.ok v, false)]) := by
  have hy : ¬ Taken y := by
    unfold Taken at hx ⊢
    rw [← h.2.2]
    exact hx
  obtain ⟨c1, l1, h1, h2, h3, h4, h5, h6⟩ := call_step (CRep.empty m 0 false) rfl (by simp; omega : _ < fuel) t t' hx
  simp only [List.length_nil, Nat.zero_add] at h3
  rcases h6 with ⟨e, he, -⟩ | ⟨-, h6, h7⟩
  · cases he
  · rw [hv] at h6 h7
    dsimp only at h7
    have hl : l1.entries = [⟨keyOf x, v, t'⟩] := by
      rw [h7]
      unfold LRU.insert LRU.evict LRU.without
      dsimp only
      split <;> simp
    obtain ⟨c2, l2, g1, g2, g3, g4, g5, g6⟩ := call_step h1 h2 (by omega : l1.entries.length < fuel) s s' hy
    rcases g6 with ⟨e, he, -, g6, -⟩ | ⟨g6, -⟩
    · rw [hl] at he
      rw [List.mem_singleton.1 he] at g6
      refine ⟨c2, ?_⟩
      simp only [runOps, CacheKey.step, bind, Except.bind]
      rw [h6]
      dsimp only
      rw [g6]
      rfl
    · have := g6 ⟨keyOf x, v, t'⟩ (by rw [hl]; simp) (keyOf_iff.2 h)
      exact absurd h5 this.1

private theorem run_once {fuel : Nat} : ∀ {xs : List (Call ν × ℚ × ℚ)} {c : Cache ν} {l : LRU ν} (before : List (Call ν)), CRep c l →
    c.defaultFail = false → l.limit = 0 → l.expiry = 0 → l.entries.length + xs.length ≤ fuel →
    (∀ k, k ∈ l.entries.map CacheEntry.key ↔ ∃ y ∈ before, ¬ Taken y ∧ keyOf y = k ∧ ∃ v, y.func.run y.args y.kwargs = .ok v) →
    (∀ x ∈ before ++ xs.map Prod.fst, ∀ y ∈ before ++ xs.map Prod.fst, Same x y → x.func = y.func) →
    ∀ c' rs, runOps fuel c (xs.map fun x => .call x.1 x.2.1 x.2.2) = .ok (c', rs) → ∀ i x, xs[i]? = some x →
      ∃ r b, rs[i]? = some (r, b) ∧ (b = true ↔ ¬ Taken x.1 ∧
        ∀ y ∈ before ++ (xs.take i).map Prod.fst, Same y x.1 → ∃ e, y.func.run y.args y.kwargs = .error e)
  | [], _, _, _, _, _, _, _, _, _, _, _, _, _, i, x, hi => by simp at hi
  | (x, t, t') :: xs, c, l, before, hr, hdf, hl0, he0, hlen, hkeys, hname, c', rs, hrun, i, z, hi => by
    rw [List.length_cons] at hlen
    rw [List.map_cons, runOps] at hrun
    simp only [bind, Except.bind] at hrun
    have hmove : before ++ ((x, t, t') :: xs).map Prod.fst = (before ++ [x]) ++ xs.map Prod.fst := by simp
    -- the rest
    have go : ∀ {c1 : Cache ν} {l1 : LRU ν} {r : Py ν} {b : Bool}, call fuel c x t t' = .ok (c1, r, b) → CRep c1 l1 →
        c1.defaultFail = false → l1.limit = 0 → l1.expiry = 0 → l1.entries.length ≤ l.entries.length + 1 →
        (∀ k, k ∈ l1.entries.map CacheEntry.key ↔
          ∃ y ∈ before ++ [x], ¬ Taken y ∧ keyOf y = k ∧ ∃ v, y.func.run y.args y.kwargs = .ok v) →
        (b = true ↔ ¬ Taken x ∧ ∀ y ∈ before, Same y x → ∃ e, y.func.run y.args y.kwargs = .error e) →
        ∃ r b, rs[i]? = some (r, b) ∧ (b = true ↔ ¬ Taken z.1 ∧
          ∀ y ∈ before ++ (((x, t, t') :: xs).take i).map Prod.fst, Same y z.1 → ∃ e, y.func.run y.args y.kwargs = .error e) := by
      intro c1 l1 r b h1 h2 h3 h4 h5 h6 h7 h8
      have hs : CacheKey.step fuel c (.call x t t') = .ok (c1, some (r, b)) := by
        unfold CacheKey.step
        simp only [bind, Except.bind]
        rw [h1]
      rw [hs] at hrun
      dsimp only at hrun
      cases hr2 : runOps fuel c1 (xs.map fun x => .call x.1 x.2.1 x.2.2) with
      | error e => rw [hr2] at hrun; cases hrun
      | ok s =>
        rw [hr2] at hrun
        obtain ⟨c2, s⟩ := s
        cases hrun
        cases i with
        | zero =>
          simp only [List.getElem?_cons_zero, Option.some.injEq] at hi
          subst hi
          exact ⟨r, b, rfl, by simpa using h8⟩
        | succ i =>
          rw [List.getElem?_cons_succ] at hi
          obtain ⟨r', b', h9, h10⟩ := run_once (before ++ [x]) h2 h3 h4 h5 (by omega) h7 (by rw [← hmove]; exact hname) c2 s hr2 i z hi
          refine ⟨r', b', by simpa using h9, ?_⟩
          rw [h10]
          simp
    by_cases ht : Taken x
    · refine go (call_taken ht) hr hdf hl0 he0 (by omega) (fun k => ?_) ⟨fun h => (by cases h), fun h => absurd ht h.1⟩
      rw [hkeys k]
      constructor
      · rintro ⟨y, hy, h⟩
        exact ⟨y, List.mem_append_left _ hy, h⟩
      · rintro ⟨y, hy, h⟩
        rcases List.mem_append.1 hy with hy | hy
        · exact ⟨y, hy, h⟩
        · rw [List.mem_singleton.1 hy] at h
          exact absurd ht h.1
    · obtain ⟨c1, l1, h1, h2, h3, h4, h5, h6⟩ := call_step hr hdf (by omega : l.entries.length < fuel) t t' ht
      rw [hl0] at h4
      rw [he0] at h5
      have hmem : ∀ k, k ∈ (l.without (keyOf x)).map CacheEntry.key ↔ k ∈ l.entries.map CacheEntry.key ∧ k ≠ keyOf x := by
        intro k
        unfold LRU.without
        rw [filter_keys]
        simp
      have same : ∀ y ∈ before, Same y x → y.func.run y.args y.kwargs = x.func.run x.args x.kwargs := by
        intro y hy h
        have := hname y (List.mem_append_left _ hy) x (by simp) h
        rw [this, h.2.1, h.2.2]
      have taken : ∀ y, Same y x → ¬ Taken y := by
        intro y h
        unfold Taken at ht ⊢
        rw [h.2.2]
        exact ht
      rcases h6 with ⟨e, he, hk, h6, h7, -⟩ | ⟨hold, h6, h7⟩
      · obtain ⟨y, hy, -, hyk, v, hv⟩ := (hkeys (keyOf x)).1 (by rw [← hk]; exact List.mem_map_of_mem he)
        refine go h6 h1 h2 h4 h5 h3 (fun k => ?_) ⟨fun h => (by cases h), fun h => ?_⟩
        · rw [h7, List.map_append, List.mem_append, hmem, hkeys]
          constructor
          · rintro (⟨⟨y, hy, h⟩, -⟩ | h)
            · exact ⟨y, List.mem_append_left _ hy, h⟩
            · simp only [List.map_cons, List.map_nil, List.mem_singleton] at h
              refine ⟨x, by simp, ht, by rw [h, hk], v, ?_⟩
              rw [← same y hy (keyOf_iff.1 hyk)]
              exact hv
          · rintro ⟨w, hw, h⟩
            by_cases hkx : k = keyOf x
            · right
              simp [hk, hkx]
            · left
              rcases List.mem_append.1 hw with hw | hw
              · exact ⟨⟨w, hw, h⟩, hkx⟩
              · rw [List.mem_singleton.1 hw] at h
                exact absurd h.2.1.symm hkx
        · obtain ⟨er, her⟩ := h.2 y hy (keyOf_iff.1 hyk)
          rw [hv] at her
          cases her
      · have habs : keyOf x ∉ l.entries.map CacheEntry.key := by
          intro h
          obtain ⟨e, he, hk⟩ := List.mem_map.1 h
          exact absurd he0 (hold e he hk).1
        refine go h6 h1 h2 h4 h5 h3 (fun k => ?_) ⟨fun _ => ⟨ht, fun y hy hs => ?_⟩, fun _ => rfl⟩
        · have hkeys' : k ∈ (l.without (keyOf x)).map CacheEntry.key ↔
              ∃ y ∈ before, ¬ Taken y ∧ keyOf y = k ∧ ∃ v, y.func.run y.args y.kwargs = .ok v := by
            rw [hmem, ← hkeys]
            exact ⟨fun h => h.1, fun h => ⟨h, fun hk => habs (hk ▸ h)⟩⟩
          rcases hrx : x.func.run x.args x.kwargs with er | v
          · rw [hrx] at h7
            rw [h7]
            dsimp only
            rw [hkeys']
            constructor
            · rintro ⟨y, hy, h⟩
              exact ⟨y, List.mem_append_left _ hy, h⟩
            · rintro ⟨y, hy, h⟩
              rcases List.mem_append.1 hy with hy | hy
              · exact ⟨y, hy, h⟩
              · rw [List.mem_singleton.1 hy, hrx] at h
                obtain ⟨v, hv⟩ := h.2.2
                cases hv
          · rw [hrx] at h7
            have hlist : l1.entries = l.without (keyOf x) ++ [⟨keyOf x, v, t'⟩] := by
              rw [h7]
              unfold LRU.insert LRU.evict
              dsimp only
              rw [if_pos hl0]
            rw [hlist, List.map_append, List.mem_append, hkeys']
            constructor
            · rintro (⟨y, hy, h⟩ | h)
              · exact ⟨y, List.mem_append_left _ hy, h⟩
              · simp only [List.map_cons, List.map_nil, List.mem_singleton] at h
                exact ⟨x, by simp, ht, h.symm, v, hrx⟩
            · rintro ⟨y, hy, h⟩
              rcases List.mem_append.1 hy with hy | hy
              · exact .inl ⟨y, hy, h⟩
              · rw [List.mem_singleton.1 hy] at h
                right
                simp [h.2.1]
        · rcases hry : y.func.run y.args y.kwargs with er | v
          · exact ⟨er, rfl⟩
          · exact absurd ((hkeys (keyOf x)).2 ⟨y, hy, taken y hs, keyOf_iff.2 hs, v, hry⟩) habs

/-- What memoisation saves: without limits, a function is run for a call if and only if no earlier call with the same name and arguments
had a result; exceptions are not kept. -/
theorem once (xs : List (Call ν × ℚ × ℚ)) (hname : ∀ x ∈ xs, ∀ y ∈ xs, Same x.1 y.1 → x.1.func = y.1.func) (fuel : Nat)
    (hf : xs.length ≤ fuel) {c : Cache ν} {rs : List (Py ν × Bool)}
    (h : runOps fuel (empty 0 0 false) (xs.map fun x => .call x.1 x.2.1 x.2.2) = .ok (c, rs)) {i : Nat} {x : Call ν × ℚ × ℚ}
    (hi : xs[i]? = some x) :
    ∃ r b, rs[i]? = some (r, b) ∧ (b = true ↔ ¬ Taken x.1 ∧
      ∀ j y, j < i → xs[j]? = some y → Same y.1 x.1 → ∃ e, y.1.func.run y.1.args y.1.kwargs = .error e) := by
  obtain ⟨r, b, h1, h2⟩ := run_once [] (CRep.empty 0 0 false) rfl rfl rfl (by simpa using hf) (by simp) (by
    intro x hx y hy
    simp only [List.nil_append] at hx hy
    obtain ⟨x', hx', rfl⟩ := List.mem_map.1 hx
    obtain ⟨y', hy', rfl⟩ := List.mem_map.1 hy
    exact hname x' hx' y' hy') c rs h i x hi
  refine ⟨r, b, h1, h2.trans (and_congr_right fun _ => ?_)⟩
  simp only [List.nil_append]
  constructor
  · intro h j y hj hy
    refine h y.1 (List.mem_map.2 ⟨y, ?_, rfl⟩)
    exact List.mem_of_getElem? (i := j) (by rw [List.getElem?_take, if_pos hj]; exact hy)
  · intro h y hy hs
    obtain ⟨y, hy', rfl⟩ := List.mem_map.1 hy
    obtain ⟨j, hj⟩ := List.getElem?_of_mem hy'
    rw [List.getElem?_take] at hj
    split at hj
    · rename_i hlt
      exact h j y hlt hj hs
    · cases hj

private theorem run_fails {fuel : Nat} (hf : 0 < fuel) : ∀ {ops : List (Op ν)} {c : Cache ν} {l : LRU ν}, CRep c l → l.entries = [] →
    c.defaultFail = true → ∃ c', runOps fuel c ops =
      .ok (c', (calls ops).map fun x => (.error (if Taken x then .typeError else .keyError), false))
  | [], c, l, _, _, _ => ⟨c, rfl⟩
  | op :: ops, c, l, hr, hl, hd => by
    have go : ∀ {c1 : Cache ν} {l1 : LRU ν} {r : Option (Py ν × Bool)}, CRep c1 l1 → l1.entries = [] → c1.defaultFail = true →
        CacheKey.step fuel c op = .ok (c1, r) →
        r.toList ++ (calls ops).map (fun x => (.error (if Taken x then .typeError else .keyError), false)) =
          (calls (op :: ops)).map (fun x => (.error (if Taken x then .typeError else .keyError), false)) →
        ∃ c', runOps fuel c (op :: ops) =
          .ok (c', (calls (op :: ops)).map fun x => (.error (if Taken x then .typeError else .keyError), false)) := by
      intro c1 l1 r h1 h2 h3 h4 h5
      obtain ⟨c', h6⟩ := run_fails hf (ops := ops) (c := c1) (l := l1) h1 h2 h3
      refine ⟨c', ?_⟩
      rw [runOps]
      simp only [bind, Except.bind]
      rw [h4]
      dsimp only
      rw [h6]
      dsimp only
      rw [h5]
    cases op with
    | call x t t' =>
      by_cases ht : Taken x
      · refine go hr hl hd (r := some (.error .typeError, false)) ?_ ?_
        · unfold CacheKey.step
          simp only [bind, Except.bind]
          rw [call_taken ht]
        · show _ = (_ : Py ν × Bool) :: _
          dsimp only
          rw [if_pos ht]
          rfl
      · have hfe := hr.fetch (keyOf x) none t
        have h2 := fetch_defaultFail c (keyOf x) none t
        have hlf : l.fetch (keyOf x) t = (l, none) := by
          unfold LRU.fetch LRU.find
          rw [hl]
          rfl
        rw [hlf, hd] at hfe
        obtain ⟨h3, h4⟩ := hfe
        simp only [Option.getD_none, if_true] at h4
        refine go h3 hl (h2.trans hd) (r := some (.error .keyError, false)) ?_ ?_
        · unfold CacheKey.step
          simp only [bind, Except.bind]
          rw [call_after ht]
          generalize hF : fetch c (keyOf x) none t = F at h4
          obtain ⟨c1, r⟩ := F
          dsimp only at h4
          subst h4
          rfl
        · show _ = (_ : Py ν × Bool) :: _
          dsimp only
          rw [if_neg ht]
          rfl
    | remove k => exact go (hr.remove k) (by simp [LRU.remove, LRU.without, hl]) ((remove_defaultFail _ _).trans hd) rfl rfl
    | clear => exact go hr.clear rfl hd rfl rfl
    | collect t => exact go (hr.collect t) (by simp [LRU.collect, hl]) ((collect_defaultFail _ _).trans hd) rfl rfl
    | reconfigure m x =>
      obtain ⟨c1, e1, e2, e3⟩ := hr.reconfigure m x fuel (by rw [hl]; exact hf)
      refine go e2 ?_ (e3.trans hd) (r := none) ?_ rfl
      · unfold LRU.evict
        dsimp only
        rw [hl]
        split <;> simp
      · unfold CacheKey.step
        simp only [bind, Except.bind]
        rw [e1]

/-- The entries of the cache are the results of the last runs. -/
private def Last (l : LRU ν) (past : List (Call ν × ℚ)) : Prop := ∀ y : Call ν,
  l.find (keyOf y) = match past.find? (fun r => @decide (Same r.1 y) (Classical.propDecidable _)) with
    | none => none
    | some r => match r.1.func.run r.1.args r.1.kwargs with
      | .ok v => some ⟨keyOf y, v, r.2⟩
      | .error _ => none

private theorem run_runs {fuel : Nat} {ex : ℚ} : ∀ {xs : List (Call ν × ℚ × ℚ)} {c : Cache ν} {l : LRU ν} {past : List (Call ν × ℚ)},
    CRep c l → c.defaultFail = false → l.limit = 0 → l.expiry = ex → l.entries.length + xs.length ≤ fuel → Last l past →
    ∃ c' rs, runOps fuel c (xs.map fun x => .call x.1 x.2.1 x.2.2) = .ok (c', rs) ∧ rs.map Prod.snd = runs ex past xs
  | [], c, l, past, _, _, _, _, _, _ => ⟨c, [], rfl, rfl⟩
  | (x, t, t') :: xs, c, l, past, hr, hdf, hl0, hex, hlen, hlast => by
    rw [List.length_cons] at hlen
    have go : ∀ {c1 : Cache ν} {l1 : LRU ν} {past' : List (Call ν × ℚ)} {r : Py ν} {b : Bool}, call fuel c x t t' = .ok (c1, r, b) →
        CRep c1 l1 → c1.defaultFail = false → l1.limit = 0 → l1.expiry = ex → l1.entries.length ≤ l.entries.length + 1 →
        Last l1 past' → runs ex past ((x, t, t') :: xs) = b :: runs ex past' xs →
        ∃ c' rs, runOps fuel c (((x, t, t') :: xs).map fun x => .call x.1 x.2.1 x.2.2) = .ok (c', rs) ∧
          rs.map Prod.snd = runs ex past ((x, t, t') :: xs) := by
      intro c1 l1 past' r b h1 h2 h3 h4 h5 h6 h7 h8
      obtain ⟨c', rs, h9, h10⟩ := run_runs (fuel := fuel) (xs := xs) (c := c1) (l := l1) (past := past') h2 h3 h4 h5 (by omega) h7
      refine ⟨c', (r, b) :: rs, ?_, ?_⟩
      · have hs : CacheKey.step fuel c (.call x t t') = .ok (c1, some (r, b)) := by
          unfold CacheKey.step
          simp only [bind, Except.bind]
          rw [h1]
        rw [List.map_cons, runOps]
        simp only [bind, Except.bind]
        rw [hs]
        dsimp only
        rw [h9]
        rfl
      · rw [List.map_cons, h10, h8]
    by_cases ht : Taken x
    · exact go (call_taken ht) hr hdf hl0 hex (by omega) hlast (by rw [runs, if_pos (.inl ht)])
    · obtain ⟨c1, l1, h1, h2, h3, h4, h5, h6⟩ := call_step hr hdf (by omega : l.entries.length < fuel) t t' ht
      rw [hl0] at h4
      rw [hex] at h5
      have hx := hlast x
      rcases h6 with ⟨e, he, hk, h6, h7, h8⟩ | ⟨hold, h6, h7⟩
      · have hfe : l.find (keyOf x) = some e := by
          cases hfi : l.find (keyOf x) with
          | none =>
            have := List.find?_eq_none.1 hfi e he
            simp [hk] at this
          | some e' =>
            have hk' : e'.key = keyOf x := by simpa using List.find?_some hfi
            rw [List.inj_on_of_nodup_map hr.nodup he (List.mem_of_find?_eq_some hfi) (hk.trans hk'.symm)]
        have hkept : Kept ex past x t := by
          rw [hfe] at hx
          cases hp : past.find? (fun r => @decide (Same r.1 x) (Classical.propDecidable _)) with
          | none => rw [hp] at hx; cases hx
          | some r =>
            rw [hp] at hx
            dsimp only at hx
            cases hrr : r.1.func.run r.1.args r.1.kwargs with
            | error er => rw [hrr] at hx; cases hx
            | ok v =>
              rw [hrr] at hx
              cases hx
              refine ⟨r, v, hp, hrr, ?_⟩
              by_cases h0 : ex = 0
              · exact .inl h0
              · right
                by_contra hlt
                exact h8 ⟨by rw [hex]; exact h0, by rw [hex]; exact not_le.1 hlt⟩
        refine go h6 h1 h2 h4 h5 h3 (fun y => ?_) (by rw [runs, if_pos (.inr hkept)])
        rw [← hlast y]
        unfold LRU.find
        rw [h7, List.find?_append, find_without]
        by_cases hy : keyOf y = keyOf x
        · rw [if_pos hy]
          have := hfe
          unfold LRU.find at this
          rw [hy, this]
          simp [hk]
        · rw [if_neg hy]
          unfold LRU.find
          cases l.entries.find? (fun e => decide (e.key = keyOf y)) with
          | some e' => rfl
          | none => simp [hk, Ne.symm hy]
      · have hnot : ¬ (Taken x ∨ Kept ex past x t) := by
          rintro (h | ⟨r, v, h8, h9, h10⟩)
          · exact ht h
          · rw [h8] at hx
            dsimp only at hx
            rw [h9] at hx
            dsimp only at hx
            have := hold _ (List.mem_of_find?_eq_some hx) rfl
            unfold LRU.old at this
            rw [hex] at this
            rcases h10 with h10 | h10
            · exact this.1 h10
            · exact absurd this.2 (not_lt.2 h10)
        refine go h6 h1 h2 h4 h5 h3 (past' := (x, t') :: past) (fun y => ?_) (by rw [runs, if_neg hnot])
        rw [List.find?_cons]
        by_cases hy : Same x y
        · have hky := keyOf_iff.2 hy
          rw [@decide_eq_true _ (Classical.propDecidable _) hy]
          dsimp only
          cases hrx : x.func.run x.args x.kwargs with
          | error er =>
            rw [hrx] at h7
            rw [h7]
            unfold LRU.find
            dsimp only
            rw [find_without, if_pos hky.symm]
          | ok v =>
            rw [hrx] at h7
            rw [h7]
            unfold LRU.find LRU.insert LRU.evict
            dsimp only
            rw [if_pos hl0]
            dsimp only
            rw [List.find?_append, find_without, if_pos hky.symm]
            simp [hky]
        · have hky : keyOf y ≠ keyOf x := fun h => hy (keyOf_iff.1 h.symm)
          rw [@decide_eq_false _ (Classical.propDecidable _) hy]
          dsimp only
          rw [← hlast y]
          cases hrx : x.func.run x.args x.kwargs with
          | error er =>
            rw [hrx] at h7
            rw [h7]
            unfold LRU.find
            dsimp only
            rw [find_without, if_neg hky]
            rfl
          | ok v =>
            rw [hrx] at h7
            rw [h7]
            unfold LRU.find LRU.insert LRU.evict
            dsimp only
            rw [if_pos hl0]
            dsimp only
            rw [List.find?_append, find_without, if_neg hky]
            unfold LRU.find
            cases l.entries.find? (fun e => decide (e.key = keyOf y)) with
            | some e' => rfl
            | none => simp [Ne.symm hky]

/-- When functions are run again: with an age limit and no size limit, just if the last run of such a call had no result or its result,
whose age counts from the end of the call, is too old. -/
theorem expiry (e : ℚ) (xs : List (Call ν × ℚ × ℚ)) (fuel : Nat) (hf : xs.length ≤ fuel) :
    ∃ c rs, runOps fuel (empty 0 e false) (xs.map fun x => .call x.1 x.2.1 x.2.2) = .ok (c, rs) ∧ rs.map Prod.snd = runs e [] xs :=
  run_runs (CRep.empty 0 e false) rfl rfl rfl (by simpa using hf) fun _ => rfl

/-- A cache with `default_fail` makes memoised functions useless: the function is never run, and every call is a KeyError (or a
TypeError, if a keyword is taken), in every sequence of operations. -/
theorem default_fail (ops : List (Op ν)) (m : Nat) (e : ℚ) (fuel : Nat) (hf : 0 < fuel) :
    ∃ c, runOps fuel (empty m e true) ops =
      .ok (c, (calls ops).map fun x => (.error (if Taken x then .typeError else .keyError), false)) :=
  run_fails hf (CRep.empty m e true) rfl rfl

/-! ### Examples -/

/-- The key of a call `f(1, 'a', k=True)`. -/
example : key (bytes "f") [.int 1, .str (bytes "a")] [(bytes "k", .bool true)] = "('f', (1, 'a'), {'k': True})" := by decide +kernel

/-- One argument has a comma, quotes are chosen, other bytes are escaped. -/
example : key (bytes "f") [.list [.tuple [.none], .uni ['\'', 'é']]] [] = "('f', ([(None,), u\"'\\xe9\"],), {})" := by decide +kernel

/-- Different calls that are equal in Python have different keys. -/
example : key (bytes "f") [.int 1] [] ≠ key (bytes "f") [.bool true] [] ∧ key (bytes "f") [.str (bytes "a")] [] ≠
    key (bytes "f") [.uni ['a']] [] := by
  refine ⟨fun h => ?_, fun h => ?_⟩
  · have := ((key_exact _ _ _ _ _ _).1 h).2.1
    simp at this
  · have := ((key_exact _ _ _ _ _ _).1 h).2.1
    simp at this

/-- The sum of integer arguments; a TypeError for other arguments. -/
def total : List Value → Py Int
  | [] => .ok 0
  | .int n :: l => do .ok (n + (← total l))
  | _ => .error .typeError

/-- A function of the name `total`. -/
def f : Func Int := ⟨bytes "total", fun a _ => total a⟩

/-- Another one of the name `total`. -/
def g : Func Int := ⟨bytes "total", fun a _ => do .ok (-(← total a))⟩

/-- A call is not run a second time, but one that raised is; a keyword `key` is a TypeError. -/
example : ∃ c, runOps 5 (empty 0 0 false) [.call ⟨f, [.int 1, .int 2], []⟩ 0 0, .call ⟨f, [.int 1, .int 2], []⟩ 1 1,
    .call ⟨f, [.none], []⟩ 2 2, .call ⟨f, [.none], []⟩ 3 3, .call ⟨f, [.int 4], [(bytes "key", .int 4)]⟩ 4 4] =
    .ok (c, [(.ok 3, true), (.ok 3, false), (.error .typeError, true), (.error .typeError, true), (.error .typeError, false)]) :=
  ⟨_, rfl⟩

/-- The hypotheses of `transparent` and `once`. -/
example : ∃ c rs, runOps 2 (empty 1 0 false) [.call ⟨f, [.int 1, .int 2], []⟩ 0 0, .call ⟨f, [.int 5], []⟩ 1 1] = .ok (c, rs) ∧
    rs.map Prod.fst = [.ok 3, .ok 5] :=
  transparent [.call ⟨f, [.int 1, .int 2], []⟩ 0 0, .call ⟨f, [.int 5], []⟩ 1 1] (by
    intro x hx y hy _
    simp only [calls, List.filterMap_cons, List.filterMap_nil, List.mem_cons, List.not_mem_nil, or_false] at hx hy
    rcases hx with rfl | rfl <;> rcases hy with rfl | rfl <;> rfl) 1 0 2 (by decide)

/-- The other function of the same name gives the sum and not its negation. -/
example : ∃ c, runOps 2 (empty 0 0 false) [.call ⟨f, [.int 1, .int 2], []⟩ 0 0, .call ⟨g, [.int 1, .int 2], []⟩ 1 1] =
    .ok (c, [(.ok 3, true), (.ok 3, false)]) ∧ g.run [.int 1, .int 2] [] = .ok (-3) := by
  refine ⟨_, same_name (x := ⟨f, [.int 1, .int 2], []⟩) (y := ⟨g, [.int 1, .int 2], []⟩) ⟨rfl, rfl, rfl⟩ (by decide) rfl 0 0 0 1 1 2
    (by decide) |>.choose_spec, rfl⟩

/-- A result lives from the end of the call: at time 15 the one of the call that ended at 5 is not older than 10, at time 16 it is. -/
example : ∃ c, runOps 3 (empty 0 10 false) [.call ⟨f, [.int 1], []⟩ 0 5, .call ⟨f, [.int 1], []⟩ 15 15, .call ⟨f, [.int 1], []⟩ 16 17] =
    .ok (c, [(.ok 1, true), (.ok 1, false), (.ok 1, true)]) := by
  have h : ((runOps 3 (empty 0 10 false) [.call ⟨f, [.int 1], []⟩ 0 5, .call ⟨f, [.int 1], []⟩ 15 15, .call ⟨f, [.int 1], []⟩ 16 17]).map
      Prod.snd) = .ok [(.ok 1, true), (.ok 1, false), (.ok 1, true)] := by decide +kernel
  cases hr : runOps 3 (empty 0 10 false) [.call ⟨f, [.int 1], []⟩ 0 5, .call ⟨f, [.int 1], []⟩ 15 15, .call ⟨f, [.int 1], []⟩ 16 17] with
  | error e => rw [hr] at h; cases h
  | ok r =>
    rw [hr] at h
    injection h with h
    exact ⟨r.1, by rw [← h]⟩

/-- With `default_fail`. -/
example : ∃ c, runOps 1 (empty 0 0 true) [.call ⟨f, [.int 1, .int 2], []⟩ 0 0] = .ok (c, [(.error .keyError, false)]) := ⟨_, rfl⟩

end Verif.Props.CacheKey
