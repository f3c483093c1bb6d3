import Verif.Model.CacheRun
import Verif.Lemmas.GenericCache

set_option linter.unusedSectionVars false

namespace Verif.GenericCache
open Verif Verif.Spec
variable {ν : Type}

theorem fetch_defaultFail (c : Cache ν) (k : String) (fail : Option Bool) (t : ℚ) :
    (fetch c k fail t).1.defaultFail = c.defaultFail := by
  unfold fetch
  dsimp only
  split
  · rfl
  · split
    · unfold remove; split <;> rfl
    · rfl

theorem remove_defaultFail (c : Cache ν) (k : String) : (remove c k).defaultFail = c.defaultFail := by
  unfold remove; split <;> rfl

theorem collect_defaultFail (c : Cache ν) (t : ℚ) : (collect c t).defaultFail = c.defaultFail := by
  unfold collect
  generalize c.values.keys = ks
  induction ks generalizing c with
  | nil => rfl
  | cons k ks ih =>
    rw [List.foldl_cons, ih]
    unfold collectBody
    split
    · rfl
    · split
      · exact remove_defaultFail _ _
      · rfl

theorem evict_length (l : LRU ν) (nb : Nat) : (l.evict nb).entries.length ≤ l.entries.length := by
  unfold LRU.evict; split <;> simp

theorem step_length (l : LRU ν) (op : CacheOp ν) : (l.step op).1.entries.length ≤ l.entries.length + 1 := by
  cases op with
  | insert k v t =>
    have := evict_length l 1
    simp [LRU.step, LRU.insert]; omega
  | fetch k fail t =>
    simp only [LRU.step, LRU.fetch]
    split
    · dsimp only; omega
    · split
      · have := List.length_filter_le (fun e => decide (e.key ≠ k)) l.entries
        simp only [LRU.without]; omega
      · have := List.length_filter_le (fun e => decide (e.key ≠ k)) l.entries
        simp only [LRU.without, List.length_append, List.length_singleton]; omega
  | remove k =>
    have := List.length_filter_le (fun e => decide (e.key ≠ k)) l.entries
    simp only [LRU.step, LRU.remove, LRU.without]; omega
  | clear => simp [LRU.step]
  | collect t =>
    have := List.length_filter_le (fun e => decide (¬ l.old e t)) l.entries
    simp only [LRU.step, LRU.collect]; omega
  | reconfigure m x =>
    have := evict_length (⟨m, x, l.entries⟩ : LRU ν) 0
    simp only [LRU.step]; exact le_trans this (by simp)

theorem CRep.step {c : Cache ν} {l : LRU ν} (h : CRep c l) (op : CacheOp ν) (fuel : Nat)
    (hf : l.entries.length < fuel)
    (hn : match op with
      | .insert k _ _ => l.find k = none
      | _ => True) :
    ∃ c', step fuel c op = .ok (c', seen c.defaultFail op (l.step op).2) ∧ CRep c' (l.step op).1 ∧
      c'.defaultFail = c.defaultFail := by
  cases op with
  | insert k v t =>
    have hk : k ∉ l.entries.map CacheEntry.key := by
      rw [← find_isSome]; dsimp only at hn; simp [hn]
    obtain ⟨c', e1, e2, e3⟩ := h.insert k v t fuel hk hf
    exact ⟨c', by simp [GenericCache.step, e1, seen], e2, e3⟩
  | fetch k fail t =>
    have hh := h.fetch k fail t
    refine ⟨(GenericCache.fetch c k fail t).1, ?_, hh.1, fetch_defaultFail _ _ _ _⟩
    have h2 := hh.2
    simp only [GenericCache.step, seen, LRU.step]
    refine congrArg Except.ok (Prod.ext rfl ?_)
    rw [h2]
    try (cases (l.fetch k t).2 <;> rfl)
  | remove k => exact ⟨_, rfl, h.remove k, remove_defaultFail _ _⟩
  | clear => exact ⟨_, rfl, h.clear, rfl⟩
  | collect t => exact ⟨_, rfl, h.collect t, collect_defaultFail _ _⟩
  | reconfigure m x =>
    obtain ⟨c', e1, e2, e3⟩ := h.reconfigure m x fuel hf
    exact ⟨c', by simp [GenericCache.step, e1, seen], e2, e3⟩

theorem CRep.run {c : Cache ν} {l : LRU ν} (h : CRep c l) (ops : List (CacheOp ν)) (fuel : Nat)
    (hf : l.entries.length + ops.length ≤ fuel) (hn : l.NoReinsert ops) :
    ∃ c', run fuel c ops = .ok (c', List.zipWith (seen c.defaultFail) ops (l.observe ops)) ∧
      CRep c' (l.after ops) ∧ c'.defaultFail = c.defaultFail := by
  induction ops generalizing c l with
  | nil => exact ⟨c, rfl, h, rfl⟩
  | cons op ops ih =>
    simp only [List.length_cons] at hf
    obtain ⟨h1, h2⟩ := hn
    obtain ⟨c1, e1, e2, e3⟩ := h.step op fuel (by omega) h1
    have := step_length l op
    obtain ⟨c2, f1, f2, f3⟩ := ih e2 (by omega) h2
    refine ⟨c2, ?_, f2, f3.trans e3⟩
    simp [GenericCache.run, e1, f1, LRU.observe, e3]

/-! ### The specification's order is the order of last use -/

theorem lastUse_append (k : String) (ops : List (CacheOp ν)) (op : CacheOp ν) :
    lastUse k (ops ++ [op]) = if op.uses k then ops.length + 1 else lastUse k ops := by
  induction ops with
  | nil => simp [lastUse]
  | cons o ops ih =>
    simp only [List.cons_append, lastUse, ih]
    by_cases h : op.uses k
    · simp [h]
    · simp [h]

theorem lastUse_le (k : String) (ops : List (CacheOp ν)) : lastUse k ops ≤ ops.length := by
  induction ops with
  | nil => simp [lastUse]
  | cons o ops ih => simp only [lastUse, List.length_cons]; split <;> [omega; (split <;> omega)]

theorem lastInsert_append (k : String) (ops : List (CacheOp ν)) (op : CacheOp ν) :
    lastInsert k (ops ++ [op]) = match op with
      | .insert k' v t => if k' = k then some (v, t) else lastInsert k ops
      | _ => lastInsert k ops := by
  induction ops with
  | nil => cases op <;> simp [lastInsert]
  | cons o ops ih =>
    simp only [List.cons_append, lastInsert, ih]
    cases op with
    | insert k' v t =>
      dsimp only
      by_cases h : k' = k
      · simp [h]
      · simp [h]
    | _ => rfl

/-- The entries are in order of last use and carry the last inserted value. -/
def Ordered (past : List (CacheOp ν)) (es : List (CacheEntry ν)) : Prop :=
  (es.Pairwise fun a b => lastUse a.key past < lastUse b.key past) ∧
  ∀ e ∈ es, lastInsert e.key past = some (e.val, e.time)

theorem Ordered.sublist {past : List (CacheOp ν)} {es es' : List (CacheEntry ν)} (h : Ordered past es)
    (hs : es'.Sublist es) : Ordered past es' :=
  ⟨h.1.sublist hs, fun e he => h.2 e (hs.subset he)⟩

/-- An operation that does not use a key keeps the order. -/
theorem Ordered.skip {past : List (CacheOp ν)} {es : List (CacheEntry ν)} (h : Ordered past es) (op : CacheOp ν)
    (hu : ∀ e ∈ es, op.uses e.key = false) : Ordered (past ++ [op]) es := by
  refine ⟨?_, ?_⟩
  · refine h.1.imp_of_mem ?_
    intro a b ha hb hab
    rw [lastUse_append, lastUse_append, hu a ha, hu b hb]; simpa using hab
  · intro e he
    rw [lastInsert_append]
    have := hu e he
    cases op with
    | insert k v t =>
      simp only [CacheOp.uses, decide_eq_false_iff_not] at this
      simp only [this, if_false]; exact h.2 e he
    | _ => exact h.2 e he

/-- The used key goes to the end. -/
theorem Ordered.snoc {past : List (CacheOp ν)} {es : List (CacheEntry ν)} (h : Ordered past es) (op : CacheOp ν)
    (e : CacheEntry ν) (hu : ∀ e' ∈ es, op.uses e'.key = false) (he : op.uses e.key = true)
    (hi : lastInsert e.key (past ++ [op]) = some (e.val, e.time)) : Ordered (past ++ [op]) (es ++ [e]) := by
  have h' := h.skip op hu
  refine ⟨?_, ?_⟩
  · rw [List.pairwise_append]
    refine ⟨h'.1, by simp, ?_⟩
    intro a ha b hb
    simp only [List.mem_singleton] at hb; subst hb
    rw [lastUse_append, lastUse_append, hu a ha, he]
    have := lastUse_le a.key past
    simp; omega
  · intro e' he'
    rw [List.mem_append, List.mem_singleton] at he'
    rcases he' with he' | rfl
    · exact h'.2 e' he'
    · exact hi

theorem Ordered.step {past : List (CacheOp ν)} {l : LRU ν} (h : Ordered past l.entries) (op : CacheOp ν)
    (hn : match op with
      | .insert k _ _ => l.find k = none
      | _ => True) : Ordered (past ++ [op]) (l.step op).1.entries := by
  cases op with
  | insert k v t =>
    have hk : k ∉ l.entries.map CacheEntry.key := by
      rw [← find_isSome]; dsimp only at hn; simp [hn]
    have hs : (l.evict 1).entries.Sublist l.entries := by
      unfold LRU.evict; split
      · exact List.Sublist.refl _
      · exact List.drop_sublist _ _
    refine (h.sublist hs).snoc _ _ ?_ ?_ ?_
    · intro e he
      simp only [CacheOp.uses, decide_eq_false_iff_not]
      rintro rfl; exact hk (List.mem_map.2 ⟨e, hs.subset he, rfl⟩)
    · simp [CacheOp.uses]
    · rw [lastInsert_append]; simp
  | fetch k fail t =>
    simp only [LRU.step, LRU.fetch]
    cases hf : l.find k with
    | none =>
      refine h.skip _ ?_
      intro e he
      unfold LRU.find at hf
      rw [List.find?_eq_none] at hf
      have := hf e he
      simp only [decide_eq_true_eq] at this
      simp only [CacheOp.uses, decide_eq_false_iff_not]
      exact fun h => this h.symm
    | some e =>
      have hm : e ∈ l.entries := List.mem_of_find?_eq_some hf
      have hek : e.key = k := by
        unfold LRU.find at hf
        simpa using List.find?_some hf
      have hw : ∀ e' ∈ l.without k, (CacheOp.fetch k fail t : CacheOp ν).uses e'.key = false := by
        intro e' he'
        unfold LRU.without at he'
        rw [List.mem_filter] at he'
        simp only [CacheOp.uses, decide_eq_false_iff_not]
        simp only [decide_eq_true_eq] at he'
        exact fun h => he'.2 h.symm
      dsimp only
      split
      · exact (h.sublist List.filter_sublist).skip _ hw
      · refine (h.sublist List.filter_sublist).snoc _ _ hw (by simp [CacheOp.uses, hek]) ?_
        rw [lastInsert_append]; exact h.2 e hm
  | remove k => exact (h.sublist List.filter_sublist).skip _ (fun _ _ => rfl)
  | clear => exact (h.sublist (List.nil_sublist _)).skip _ (fun _ _ => rfl)
  | collect t => exact (h.sublist List.filter_sublist).skip _ (fun _ _ => rfl)
  | reconfigure m x =>
    refine (h.sublist ?_).skip _ (fun _ _ => rfl)
    simp only [LRU.step, LRU.evict]
    split
    · exact List.Sublist.refl _
    · exact List.drop_sublist _ _

theorem Ordered.after {past : List (CacheOp ν)} {l : LRU ν} (h : Ordered past l.entries) (ops : List (CacheOp ν))
    (hn : l.NoReinsert ops) : Ordered (past ++ ops) (l.after ops).entries := by
  induction ops generalizing past l with
  | nil => simpa [LRU.after] using h
  | cons op ops ih =>
    have := ih (h.step op hn.1) hn.2
    simpa [LRU.after] using this

end Verif.GenericCache

namespace Verif.GenericCache
open Verif Verif.Spec
variable {ν : Type}

/-! ### Retention -/

theorem otherKeys_snoc (k : String) (ops : List (CacheOp ν)) (op : CacheOp ν) :
    otherKeys k (ops ++ [op]) = otherKeys k ops ∪ otherKeys k [op] := by
  unfold otherKeys
  rw [List.filterMap_append, List.toFinset_append]

/-- The entry of `k` is there, and everything used later than it was used in `since`. -/
def Kept (k : String) (v : ν) (n : Nat) (since : List (CacheOp ν)) (l : LRU ν) : Prop :=
  l.limit = n ∧ l.expiry = 0 ∧ (n ≠ 0 → l.entries.length ≤ n) ∧ (l.entries.map CacheEntry.key).Nodup ∧
  ∃ A e B, l.entries = A ++ e :: B ∧ e.key = k ∧ e.val = v ∧ ∀ b ∈ B, b.key ∈ otherKeys k since

theorem Kept.mono {k : String} {v : ν} {n : Nat} {since : List (CacheOp ν)} {l : LRU ν} (h : Kept k v n since l)
    (op : CacheOp ν) : Kept k v n (since ++ [op]) l := by
  obtain ⟨h1, h2, h3, h4, A, e, B, h5, h6, h7, h8⟩ := h
  refine ⟨h1, h2, h3, h4, A, e, B, h5, h6, h7, ?_⟩
  intro b hb; rw [otherKeys_snoc]; exact Finset.mem_union_left _ (h8 b hb)

theorem Kept.fetch {k : String} {v : ν} {n : Nat} {since : List (CacheOp ν)} {l : LRU ν} (h : Kept k v n since l)
    (k' : String) (fail : Option Bool) (t : ℚ) :
    Kept k v n (since ++ [.fetch k' fail t]) (l.fetch k' t).1 := by
  have hm := h.mono (.fetch k' fail t)
  unfold LRU.fetch
  cases hf : l.find k' with
  | none => exact hm
  | some e0 =>
    have hold : ¬ l.old e0 t := by unfold LRU.old; rw [h.2.1]; simp
    simp only [hold, if_false]
    have hm0 : e0 ∈ l.entries := List.mem_of_find?_eq_some hf
    have hek : e0.key = k' := by
      unfold LRU.find at hf
      simpa using List.find?_some hf
    obtain ⟨h1, h2, h3, h4, A, e, B, h5, h6, h7, h8⟩ := hm
    have hnd' : ((l.without k' ++ [e0]).map CacheEntry.key).Nodup := by
      unfold LRU.without
      rw [List.map_append, filter_keys, List.map_singleton, hek]
      rw [List.nodup_append]
      refine ⟨h4.filter _, by simp, ?_⟩
      intro a ha b hb
      simp only [List.mem_filter, decide_eq_true_eq] at ha
      simp only [List.mem_singleton] at hb
      subst hb; exact ha.2
    have hlen' : n ≠ 0 → (l.without k' ++ [e0]).length ≤ n := by
      intro hn
      have hl := h3 hn
      have : (l.without k').length < l.entries.length := by
        unfold LRU.without
        rw [List.length_filter_lt_length_iff_exists]
        exact ⟨e0, hm0, by simp [hek]⟩
      simp only [List.length_append, List.length_singleton]; omega
    refine ⟨h1, h2, hlen', hnd', ?_⟩
    by_cases hkk : k' = k
    · refine ⟨l.without k', e0, [], rfl, hek.trans hkk, ?_, by simp⟩
      have : e0 = e := by
        apply List.inj_on_of_nodup_map h4 hm0
        · rw [h5]; simp
        · rw [hek, hkk, h6]
      rw [this, h7]
    · refine ⟨A.filter (fun x => decide (x.key ≠ k')), e, B.filter (fun x => decide (x.key ≠ k')) ++ [e0], ?_, h6, h7, ?_⟩
      · unfold LRU.without
        rw [h5, List.filter_append, List.filter_cons]
        have : decide (e.key ≠ k') = true := by
          simp only [decide_eq_true_eq]; rw [h6]; exact fun h => hkk h.symm
        rw [if_pos this]; simp
      · intro b hb
        rw [List.mem_append, List.mem_singleton] at hb
        rcases hb with hb | rfl
        · exact h8 b (List.mem_of_mem_filter hb)
        · rw [otherKeys_snoc, hek]
          apply Finset.mem_union_right
          simp [otherKeys, hkk]

theorem Kept.insert {k : String} {v : ν} {n : Nat} {since : List (CacheOp ν)} {l : LRU ν} (h : Kept k v n since l)
    (k' : String) (v' : ν) (t : ℚ) (hk' : l.find k' = none)
    (hc : n ≠ 0 → (otherKeys k (since ++ [.insert k' v' t])).card < n) :
    Kept k v n (since ++ [.insert k' v' t]) (l.insert k' v' t) := by
  obtain ⟨h1, h2, h3, h4, A, e, B, h5, h6, h7, h8⟩ := h
  have hnot : k' ∉ l.entries.map CacheEntry.key := by rw [← find_isSome]; simp [hk']
  have hkk : k' ≠ k := by
    rintro rfl; apply hnot; rw [h5]; simp [h6]
  have hin : k' ∈ otherKeys k [CacheOp.insert k' v' t] := by simp [otherKeys, hkk]
  have hev : ∃ A', (l.evict 1).entries = A' ++ e :: B ∧ A'.Sublist A ∧
      (n ≠ 0 → (A' ++ e :: B).length + 1 ≤ n) := by
    unfold LRU.evict
    by_cases hl : l.limit = 0
    · rw [if_pos hl]
      exact ⟨A, h5, List.Sublist.refl _, fun hn => absurd (h1.symm.trans hl) hn⟩
    · rw [if_neg hl]
      have hn0 : n ≠ 0 := by rw [← h1]; exact hl
      have hlen := h3 hn0
      have hB : B.length + 1 ≤ (otherKeys k (since ++ [CacheOp.insert k' v' t])).card := by
        have hnd : (k' :: B.map CacheEntry.key).Nodup := by
          rw [List.nodup_cons]
          constructor
          · intro hc; apply hnot; rw [h5]; simp only [List.map_append, List.map_cons, List.mem_append, List.mem_cons]
            exact Or.inr (Or.inr hc)
          · rw [h5, List.map_append, List.map_cons, List.nodup_append] at h4
            exact (List.nodup_cons.1 h4.2.1).2
        have := List.toFinset_card_of_nodup hnd
        simp only [List.length_cons, List.length_map] at this
        rw [← this]
        apply Finset.card_le_card
        intro x hx
        rw [List.mem_toFinset, List.mem_cons] at hx
        rw [otherKeys_snoc]
        rcases hx with rfl | hx
        · exact Finset.mem_union_right _ hin
        · obtain ⟨b, hb, rfl⟩ := List.mem_map.1 hx
          exact Finset.mem_union_left _ (h8 b hb)
      have hcard := hc hn0
      have hll : l.entries.length = A.length + (B.length + 1) := by rw [h5]; simp
      have hd : l.entries.length + 1 - l.limit ≤ A.length := by omega
      refine ⟨A.drop (l.entries.length + 1 - l.limit), ?_, List.drop_sublist _ _, ?_⟩
      · dsimp only
        conv_lhs => rw [h5]
        rw [List.drop_append_of_le_length (by rw [← h5]; exact hd), ← h5]
      · intro _
        simp only [List.length_append, List.length_drop, List.length_cons]
        omega
  obtain ⟨A', e1, e2, e3⟩ := hev
  have hsub : (l.evict 1).entries.Sublist l.entries := by
    rw [e1, h5]; exact e2.append (List.Sublist.refl _)
  refine ⟨?_, ?_, ?_, ?_, A', e, B ++ [⟨k', v', t⟩], ?_, h6, h7, ?_⟩
  · unfold LRU.insert LRU.evict; split <;> exact h1
  · unfold LRU.insert LRU.evict; split <;> exact h2
  · intro hn
    simp only [LRU.insert, e1, List.length_append, List.length_singleton]
    have := e3 hn
    simp only [List.length_append] at this
    exact this
  · simp only [LRU.insert, List.map_append, List.map_singleton]
    rw [List.nodup_append]
    refine ⟨h4.sublist (hsub.map _), by simp, ?_⟩
    intro a ha b hb
    simp only [List.mem_singleton] at hb
    subst hb
    rintro rfl
    exact hnot ((hsub.map CacheEntry.key).subset ha)
  · simp [LRU.insert, e1]
  · intro b hb
    rw [otherKeys_snoc]
    rw [List.mem_append, List.mem_singleton] at hb
    rcases hb with hb | rfl
    · exact Finset.mem_union_left _ (h8 b hb)
    · exact Finset.mem_union_right _ hin

theorem Kept.after {k : String} {v : ν} {n : Nat} {since : List (CacheOp ν)} {l : LRU ν} (h : Kept k v n since l)
    (ops : List (CacheOp ν)) (ho : OnlyUses ops) (hn : l.NoReinsert ops)
    (hc : n ≠ 0 → (otherKeys k (since ++ ops)).card < n) : Kept k v n (since ++ ops) (l.after ops) := by
  induction ops generalizing since l with
  | nil => simpa [LRU.after] using h
  | cons op ops ih =>
    have hop := ho op (by simp)
    have hrest : OnlyUses ops := fun o hm => ho o (by simp [hm])
    have hc' : n ≠ 0 → (otherKeys k ((since ++ [op]) ++ ops)).card < n := by simpa using hc
    have hstep : Kept k v n (since ++ [op]) (l.step op).1 := by
      cases op with
      | insert k' v' t =>
        refine h.insert k' v' t hn.1 ?_
        intro h0
        refine lt_of_le_of_lt (Finset.card_le_card ?_) (hc' h0)
        have e : since ++ [CacheOp.insert k' v' t] ++ ops = (since ++ [CacheOp.insert k' v' t]) ++ ops := rfl
        intro x hx
        simp only [otherKeys, List.mem_toFinset, List.mem_filterMap, List.mem_append] at hx ⊢
        obtain ⟨a, ha, hxa⟩ := hx
        exact ⟨a, Or.inl ha, hxa⟩
      | fetch k' fail t => exact h.fetch k' fail t
      | remove _ => exact hop.elim
      | clear => exact hop.elim
      | collect _ => exact hop.elim
      | reconfigure _ _ => exact hop.elim
    have := ih hstep hrest hn.2 hc'
    simpa [LRU.after] using this

/-! ### Any history -/

theorem remove_length (c : Cache ν) (k : String) : (remove c k).values.length ≤ c.values.length := by
  unfold remove
  split
  · exact List.length_filter_le _ _
  · rfl

theorem remove_maxsize (c : Cache ν) (k : String) : (remove c k).maxsize = c.maxsize := by
  unfold remove; split <;> rfl

theorem shrink_partial {fuel nb : Nat} {c c' : Cache ν} (h : shrink fuel nb c = .ok c') :
    c'.maxsize = c.maxsize ∧ (c'.maxsize ≠ 0 → c'.values.length + nb ≤ c'.maxsize) := by
  unfold shrink at h
  split at h
  · have := Py.whileLoop_partial (fun c' => c'.maxsize = c.maxsize)
      (by
        intro s s' hs _ hb
        unfold shrinkBody at hb
        simp only [Except.ok.injEq] at hb
        rw [← hb, remove_maxsize]; exact hs) fuel c c' rfl h
    refine ⟨this.1, fun _ => ?_⟩
    have h2 := this.2
    simp only [Except.ok.injEq, decide_eq_false_iff_not] at h2
    omega
  · simp only [Except.ok.injEq] at h
    subst h
    rename_i hm
    exact ⟨rfl, fun h => absurd h hm⟩

theorem set_length_of_has {κ μ : Type} [DecidableEq κ] (d : AD κ μ) (k : κ) (v : μ) (h : d.has k = true) :
    (d.set k v).length = d.length := by
  have h1 := congrArg List.length (AD.keys_set d k v)
  have h2 : k ∈ d.keys := by rw [AD.mem_keys_iff]; exact h
  rw [if_pos h2] at h1
  simpa [AD.keys] using h1

theorem set_length_le {κ μ : Type} [DecidableEq κ] (d : AD κ μ) (k : κ) (v : μ) :
    (d.set k v).length ≤ d.length + 1 := by
  have h1 := congrArg List.length (AD.keys_set d k v)
  by_cases h : k ∈ d.keys
  · rw [if_pos h] at h1
    simp [AD.keys] at h1; omega
  · rw [if_neg h] at h1
    simp [AD.keys] at h1; omega

theorem collect_length (c : Cache ν) (t : ℚ) :
    (collect c t).values.length ≤ c.values.length ∧ (collect c t).maxsize = c.maxsize := by
  unfold collect
  generalize c.values.keys = ks
  induction ks generalizing c with
  | nil => exact ⟨le_refl _, rfl⟩
  | cons k ks ih =>
    rw [List.foldl_cons]
    have h1 : (collectBody t c k).values.length ≤ c.values.length ∧ (collectBody t c k).maxsize = c.maxsize := by
      unfold collectBody
      split
      · exact ⟨le_refl _, rfl⟩
      · split
        · exact ⟨remove_length _ _, remove_maxsize _ _⟩
        · exact ⟨le_refl _, rfl⟩
    have h2 := ih (collectBody t c k)
    exact ⟨h2.1.trans h1.1, h2.2.trans h1.2⟩

/-- The size stays within the limit. -/
def Within (c : Cache ν) : Prop := c.maxsize ≠ 0 → c.values.length ≤ c.maxsize

theorem Within.insert {c c' : Cache ν} (h : Within c) {fuel : Nat} {k : String} {v : ν} {t : ℚ}
    (hs : insert fuel c k v t = .ok c') : Within c' := by
  unfold GenericCache.insert at hs
  split at hs
  · rename_i hk
    simp only [Except.ok.injEq] at hs
    subst hs
    intro h0
    simp only [store] at h0 ⊢
    rw [set_length_of_has _ _ _ hk]; exact h h0
  · split at hs
    · rename_i c1 hc1
      simp only [Except.ok.injEq] at hs
      subst hs
      intro h0
      have hp := shrink_partial hc1
      have := hp.2 h0
      have h2 := set_length_le c1.values k (v, t)
      simp only [store]
      exact h2.trans this
    · simp at hs

theorem Within.step {c c' : Cache ν} (h : Within c) {fuel : Nat} {op : CacheOp ν} {o : Py (Option ν)}
    (hs : step fuel c op = .ok (c', o)) : Within c' := by
  cases op with
  | insert k v t =>
    simp only [GenericCache.step] at hs
    split at hs
    · rename_i c1 hc1
      simp only [Except.ok.injEq, Prod.mk.injEq] at hs
      exact hs.1 ▸ h.insert hc1
    · simp at hs
  | fetch k fail t =>
    simp only [GenericCache.step, Except.ok.injEq] at hs
    have : c' = (fetch c k fail t).1 := by rw [hs]
    subst this
    unfold fetch
    dsimp only
    split
    · exact h
    · split
      · intro h0
        dsimp only at h0 ⊢
        rw [remove_maxsize] at h0 ⊢
        exact (remove_length _ _).trans (h h0)
      · exact h
  | remove k =>
    simp only [GenericCache.step, Except.ok.injEq, Prod.mk.injEq] at hs
    rw [← hs.1]
    intro h0
    rw [remove_maxsize] at h0 ⊢
    exact (remove_length _ _).trans (h h0)
  | clear =>
    simp only [GenericCache.step, Except.ok.injEq, Prod.mk.injEq] at hs
    rw [← hs.1]
    intro h0; simp [clear]
  | collect t =>
    simp only [GenericCache.step, Except.ok.injEq, Prod.mk.injEq] at hs
    rw [← hs.1]
    intro h0
    rw [(collect_length c t).2] at h0 ⊢
    exact (collect_length c t).1.trans (h h0)
  | reconfigure m x =>
    simp only [GenericCache.step] at hs
    split at hs
    · rename_i c1 hc1
      simp only [Except.ok.injEq, Prod.mk.injEq] at hs
      rw [← hs.1]
      intro h0
      exact (shrink_partial hc1).2 h0
    · simp at hs

theorem Within.run {c c' : Cache ν} (h : Within c) {fuel : Nat} {ops : List (CacheOp ν)} {os : List (Py (Option ν))}
    (hs : run fuel c ops = .ok (c', os)) : Within c' := by
  induction ops generalizing c os with
  | nil =>
    simp only [GenericCache.run, Except.ok.injEq, Prod.mk.injEq] at hs
    exact hs.1 ▸ h
  | cons op ops ih =>
    simp only [GenericCache.run] at hs
    split at hs
    · simp at hs
    · rename_i c1 o h1
      split at hs
      · simp at hs
      · rename_i c2 os2 h2
        simp only [Except.ok.injEq, Prod.mk.injEq] at hs
        exact ih (h.step h1) (hs.1 ▸ h2)

end Verif.GenericCache
