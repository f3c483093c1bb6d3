import Verif.Model.CacheThreads
import Verif.Lemmas.Threads
import Verif.Lemmas.Base
import Mathlib.Algebra.BigOperators.Group.Finset.Piecewise
import Mathlib.Algebra.Order.BigOperators.Group.Finset

set_option linter.unusedSectionVars false
namespace Verif.CacheThreads
open Verif Verif.Threads Verif.GenericCache Verif.Spec Verif.Spec.Threads

variable {ν : Type}

/-! ### Programs that run alone -/

theorem alone_act {σ α β : Type} (x : Act σ α) (f : α → Act σ β) (s : σ) :
    alone (x >>= f : Act σ β) s = match alone x s with
      | (s', .ok a) => alone (f a) s'
      | (s', .error e) => (s', .error e) := by
  refine (alone_bind x _ s).trans ?_
  rcases h : alone x s with ⟨s', r⟩
  cases r <;> rfl

theorem alone_pure {σ α : Type} (a : α) (s : σ) : alone (pure a : Act σ α) s = (s, .ok a) := rfl
theorem alone_look {σ α : Type} (f : σ → Py α) (s : σ) : alone (look f) s = (s, f s) := rfl
theorem alone_write {σ : Type} (f : σ → σ) (s : σ) : alone (write f) s = (f s, .ok ()) := rfl
theorem alone_raise {σ α : Type} (e : Err) (s : σ) : alone (raise e : Act σ α) s = (s, .error e) := rfl
theorem alone_tryWrite {σ : Type} (ok : σ → Bool) (e : Err) (f : σ → σ) (s : σ) :
    alone (tryWrite ok e f) s = if ok s then (f s, .ok ()) else (s, .error e) := by
  unfold tryWrite; simp only [alone]; split <;> rfl
theorem alone_setLru (f : LRUStock.Stock String → LRUStock.Stock String) (c : Cache ν) :
    alone (setLru f) c = ({ c with lru := f c.lru }, .ok ()) := rfl

theorem has_get {κ μ : Type} [DecidableEq κ] (d : AD κ μ) (k : κ) : d.has k = (d.get? k).isSome := rfl

theorem alone_lruDiscard (k : String) (c : Cache ν) :
    alone (lruDiscard k) c = ({ c with lru := LRUStock.discard c.lru k }, .ok ()) := by
  unfold lruDiscard LRUStock.discard
  simp only [alone_act, alone_look, has_get]
  cases h : c.lru.keys.get? k with
  | none => simp [alone_pure]
  | some node =>
    simp only [Option.isSome_some, if_true, alone_act, alone_look, AD.get, h, alone_setLru, alone_tryWrite]

theorem alone_lruAdd (k : String) (c : Cache ν) :
    alone (lruAdd k) c = ({ c with lru := LRUStock.add c.lru k }, .ok ()) := by
  unfold lruAdd LRUStock.add
  simp only [alone_act, alone_look, alone_setLru]

theorem alone_lruUpdate (k : String) (c : Cache ν) :
    alone (lruUpdate k) c = ({ c with lru := LRUStock.update c.lru k }, .ok ()) := by
  unfold lruUpdate LRUStock.update
  simp only [alone_act, alone_lruDiscard, alone_lruAdd]

theorem alone_lruPop (c : Cache ν) : alone lruPop c = (c, .ok (LRUStock.pop c.lru)) := by
  unfold lruPop LRUStock.pop
  simp only [alone_act, alone_look]
  by_cases h : c.lru.next 0 = 0 <;> simp [h, alone_pure, alone_look]

theorem alone_lruClear (c : Cache ν) : alone lruClear c = ({ c with lru := LRUStock.clear c.lru }, .ok ()) := by
  unfold lruClear LRUStock.clear
  simp only [alone_act, alone_setLru]

theorem alone_removeBody (k : String) (c : Cache ν) : alone (removeBody k) c = (remove c k, .ok ()) := by
  unfold removeBody remove
  simp only [alone_act, alone_look]
  by_cases hb : c.values.has k = true
  · obtain ⟨e, he⟩ := Option.isSome_iff_exists.1 hb
    rw [if_pos hb, if_pos hb]
    simp only [alone_act, alone_look, AD.get, he, alone_lruDiscard, alone_tryWrite, hb, if_true]
  · rw [if_neg hb, if_neg hb]; rfl

theorem alone_removeA (k : String) (c : Cache ν) : alone (removeA k) c = (remove c k, .ok ()) := by
  exact (alone_synchronized _ _).trans (alone_removeBody k c)

theorem alone_sizeA (c : Cache ν) : alone sizeA c = (c, .ok c.values.length) := by
  exact alone_synchronized _ _

theorem alone_shrinkLoop (nb fuel : Nat) (c c' : Cache ν)
    (h : Py.whileLoop (fun c : Cache ν => .ok (decide (c.values.length + nb > c.maxsize))) shrinkBody fuel c = .ok c') :
    alone (shrinkLoop nb fuel) c = (c', .ok ()) := by
  induction fuel generalizing c with
  | zero => simp [Py.whileLoop] at h
  | succ fuel ih =>
    unfold shrinkLoop
    simp only [Py.whileLoop] at h
    simp only [alone_act, alone_sizeA, alone_look]
    by_cases hb : c.values.length + nb > c.maxsize
    · simp only [hb, decide_true, shrinkBody] at h
      simp only [hb, decide_true, if_true, alone_act, alone_lruPop, alone_removeA]
      exact ih _ h
    · simp only [hb, decide_false, Except.ok.injEq] at h
      rw [if_neg (by simpa using hb), ← h]; rfl

theorem alone_shrinkA (fuel nb : Nat) (c c' : Cache ν) (h : shrink fuel nb c = .ok c') :
    alone (shrinkA fuel nb) c = (c', .ok ()) := by
  unfold shrink at h
  unfold shrinkA
  simp only [alone_act, alone_look]
  by_cases hm : c.maxsize = 0
  · simp only [hm, ne_eq, not_true_eq_false, if_false, Except.ok.injEq] at h
    rw [if_neg (by simpa using hm), ← h]; rfl
  · simp only [ne_eq, hm, not_false_eq_true, if_true] at h
    simp only [ne_eq, hm, not_false_eq_true, decide_true, if_true]
    exact alone_shrinkLoop nb fuel c c' h

theorem alone_hasExpiredA (e : ν × ℚ) (now : ℚ) (c : Cache ν) :
    alone (hasExpiredA e now) c = (c, .ok (hasExpired c e now)) := by
  unfold hasExpiredA hasExpired
  simp only [alone_act, alone_look]
  by_cases h : c.expiry = 0 <;> simp [h, alone_pure, alone_look]

theorem alone_fetchBody (k : String) (fail : Option Bool) (now : ℚ) (c : Cache ν) :
    alone (fetchBody k fail now) c = fetch c k fail now := by
  unfold fetchBody fetch
  simp only [alone_act, alone_look, has_get]
  cases h : c.values.get? k with
  | none =>
    simp only [Option.isSome_none, Bool.false_eq_true, if_false]
    cases fail.getD c.defaultFail <;> simp [alone_pure, alone_raise]
  | some e =>
    simp only [Option.isSome_some, if_true, alone_act, alone_look, AD.get, h, alone_hasExpiredA]
    cases hasExpired c e now with
    | false => simp only [Bool.false_eq_true, if_false, alone_act, alone_lruUpdate, alone_pure]
    | true =>
      simp only [if_true, alone_act, alone_removeA]
      cases fail.getD c.defaultFail <;> simp [alone_pure, alone_raise]

theorem alone_fetchA (k : String) (fail : Option Bool) (now : ℚ) (c : Cache ν) :
    alone (fetchA k fail now) c = fetch c k fail now := by
  exact (alone_synchronized _ _).trans (alone_fetchBody k fail now c)

theorem alone_insertBody (fuel : Nat) (k : String) (v : ν) (now : ℚ) (c c' : Cache ν)
    (h : insert fuel c k v now = .ok c') : alone (insertBody fuel k v now) c = (c', .ok ()) := by
  unfold GenericCache.insert at h
  unfold insertBody
  simp only [alone_act, alone_look]
  cases hb : c.values.has k with
  | true =>
    simp only [hb, if_true, Except.ok.injEq] at h
    simp only [if_true, alone_pure, alone_act, alone_write, alone_lruAdd, ← h, store]
  | false =>
    simp only [hb, Bool.false_eq_true, if_false] at h
    cases hs : shrink fuel 1 c with
    | error e => rw [hs] at h; simp at h
    | ok c1 =>
      rw [hs] at h
      simp only [Except.ok.injEq] at h
      simp only [Bool.false_eq_true, if_false, alone_shrinkA fuel 1 c c1 hs, alone_act, alone_write, alone_lruAdd, ← h, store]

theorem alone_insertA (fuel : Nat) (k : String) (v : ν) (now : ℚ) (c c' : Cache ν)
    (h : insert fuel c k v now = .ok c') : alone (insertA fuel k v now) c = (c', .ok ()) := by
  exact (alone_synchronized _ _).trans (alone_insertBody _ _ _ _ _ _ h)

theorem alone_clearBody (c : Cache ν) : alone clearBody c = (clear c, .ok ()) := by
  unfold clearBody GenericCache.clear
  simp only [alone_act, alone_write, alone_lruClear]

theorem alone_reconfigureBody (fuel m : Nat) (x : ℚ) (c c' : Cache ν) (h : reconfigure fuel c m x = .ok c') :
    alone (reconfigureBody fuel m x) c = (c', .ok ()) := by
  unfold reconfigureBody
  simp only [alone_act, alone_write]
  exact alone_shrinkA fuel 0 _ c' h

/-! ### The keys of the cache are distinct -/

theorem wf_remove {c : Cache ν} (h : c.values.WF) (k : String) : (remove c k).values.WF := by
  unfold remove
  split
  · exact AD.WF.del h k
  · exact h

theorem wf_loop (nb fuel : Nat) : ∀ (c c' : Cache ν), c.values.WF →
    Py.whileLoop (fun c : Cache ν => .ok (decide (c.values.length + nb > c.maxsize))) shrinkBody fuel c = .ok c' →
    c'.values.WF := by
  induction fuel with
  | zero => intro c c' _ h; simp [Py.whileLoop] at h
  | succ fuel ih =>
    intro c c' hw h
    simp only [Py.whileLoop] at h
    by_cases hb : c.values.length + nb > c.maxsize
    · simp only [hb, decide_true, shrinkBody] at h
      exact ih _ _ (wf_remove hw _) h
    · simp only [hb, decide_false, Except.ok.injEq] at h
      rw [← h]; exact hw

theorem wf_shrink {fuel nb : Nat} {c c' : Cache ν} (hw : c.values.WF) (h : shrink fuel nb c = .ok c') : c'.values.WF := by
  unfold shrink at h
  split at h
  · exact wf_loop nb fuel c c' hw h
  · simp only [Except.ok.injEq] at h; rw [← h]; exact hw

theorem wf_insert {fuel : Nat} {c c' : Cache ν} {k : String} {v : ν} {t : ℚ} (hw : c.values.WF)
    (h : insert fuel c k v t = .ok c') : c'.values.WF := by
  unfold GenericCache.insert at h
  split at h
  · simp only [Except.ok.injEq] at h; rw [← h]; exact AD.WF.set hw _ _
  · split at h
    · rename_i c1 hs
      simp only [Except.ok.injEq] at h; rw [← h]; exact AD.WF.set (wf_shrink hw hs) _ _
    · simp at h

theorem wf_fetch {c : Cache ν} {k : String} {fail : Option Bool} {t : ℚ} (hw : c.values.WF) :
    (fetch c k fail t).1.values.WF := by
  unfold fetch
  split
  · exact hw
  · dsimp only
    split
    · exact wf_remove hw _
    · exact hw

theorem wf_collect {c : Cache ν} (hw : c.values.WF) (t : ℚ) : (collect c t).values.WF := by
  unfold collect
  generalize c.values.keys = ks
  induction ks generalizing c with
  | nil => exact hw
  | cons k ks ih =>
    simp only [List.foldl_cons]
    apply ih
    unfold GenericCache.collectBody
    split
    · exact hw
    · split
      · exact wf_remove hw k
      · exact hw

theorem wf_reconfigure {fuel m : Nat} {x : ℚ} {c c' : Cache ν} (hw : c.values.WF) (h : reconfigure fuel c m x = .ok c') :
    c'.values.WF := wf_shrink (c := { c with maxsize := m, expiry := x }) hw h

theorem wf_step {fuel : Nat} {c c' : Cache ν} {op : CacheOp ν} {o : Py (Option ν)} (hw : c.values.WF)
    (h : GenericCache.step fuel c op = .ok (c', o)) : c'.values.WF := by
  cases op with
  | insert k v t =>
    simp only [GenericCache.step] at h
    split at h
    · rename_i c1 hi
      simp only [Except.ok.injEq, Prod.mk.injEq] at h; rw [← h.1]; exact wf_insert hw hi
    · simp at h
  | fetch k fail t =>
    simp only [GenericCache.step, Except.ok.injEq] at h
    have := wf_fetch (k := k) (fail := fail) (t := t) hw
    rw [h] at this; exact this
  | remove k => simp only [GenericCache.step, Except.ok.injEq, Prod.mk.injEq] at h; rw [← h.1]; exact wf_remove hw k
  | clear =>
    simp only [GenericCache.step, Except.ok.injEq, Prod.mk.injEq] at h; rw [← h.1]
    simp [GenericCache.clear, AD.WF, AD.keys]
  | collect t => simp only [GenericCache.step, Except.ok.injEq, Prod.mk.injEq] at h; rw [← h.1]; exact wf_collect hw t
  | reconfigure m x =>
    simp only [GenericCache.step] at h
    split at h
    · rename_i c1 hi
      simp only [Except.ok.injEq, Prod.mk.injEq] at h; rw [← h.1]; exact wf_reconfigure hw hi
    · simp at h

theorem get_remove_ne {c : Cache ν} {k k' : String} (h : k ≠ k') : (remove c k').values.get? k = c.values.get? k := by
  unfold remove
  split
  · exact (AD.get?_del _ _ _).trans (if_neg h)
  · rfl

theorem alone_collectLoop (t : ℚ) : ∀ (ks : List String) (c : Cache ν), ks.Nodup → (∀ k ∈ ks, (c.values.get? k).isSome) →
    alone (collectLoop t ks) c = (ks.foldl (GenericCache.collectBody t) c, .ok ()) := by
  intro ks
  induction ks with
  | nil => intro c _ _; rfl
  | cons k ks ih =>
    intro c hn hk
    obtain ⟨e, he⟩ := Option.isSome_iff_exists.1 (hk k (by simp))
    rw [List.nodup_cons] at hn
    unfold collectLoop
    simp only [alone_act, alone_look, AD.get, he, alone_hasExpiredA, List.foldl_cons, GenericCache.collectBody]
    cases hasExpired c e t with
    | false =>
      simp only [Bool.false_eq_true, if_false, alone_pure]
      exact ih c hn.2 fun k' h => hk k' (by simp [h])
    | true =>
      simp only [if_true, alone_act, alone_removeA]
      refine ih _ hn.2 fun k' h => ?_
      rw [get_remove_ne (by rintro rfl; exact hn.1 h)]
      exact hk k' (by simp [h])

theorem alone_collectBodyA (t : ℚ) (c : Cache ν) (hw : c.values.WF) :
    alone (collectBodyA t) c = (collect c t, .ok ()) := by
  unfold collectBodyA collect
  simp only [alone_act, alone_look]
  exact alone_collectLoop t _ c hw fun k hk => by
    exact (AD.mem_keys_iff _ _).1 hk

/-- A synchronized method that runs alone does what the model of the method does. -/
theorem alone_op {fuel : Nat} {c c' : Cache ν} {op : CacheOp ν} {o : Py (Option ν)} (hw : c.values.WF)
    (h : GenericCache.step fuel c op = .ok (c', o)) : alone (opImpl fuel op) c = (c', o) := by
  refine (alone_synchronized _ _).trans ?_
  cases op with
  | insert k v t =>
    simp only [GenericCache.step] at h
    split at h
    · rename_i c1 hi
      simp only [Except.ok.injEq, Prod.mk.injEq] at h
      simp only [opBody, alone_act, alone_insertBody _ _ _ _ _ _ hi, alone_pure, h]
    · simp at h
  | fetch k fail t =>
    simp only [GenericCache.step, Except.ok.injEq] at h
    simp only [opBody, alone_fetchBody, h]
  | remove k =>
    simp only [GenericCache.step, Except.ok.injEq, Prod.mk.injEq] at h
    simp only [opBody, alone_act, alone_removeBody, alone_pure, h]
  | clear =>
    simp only [GenericCache.step, Except.ok.injEq, Prod.mk.injEq] at h
    simp only [opBody, alone_act, alone_clearBody, alone_pure, h]
  | collect t =>
    simp only [GenericCache.step, Except.ok.injEq, Prod.mk.injEq] at h
    simp only [opBody, alone_act, alone_collectBodyA t c hw, alone_pure, h]
  | reconfigure m x =>
    simp only [GenericCache.step] at h
    split at h
    · rename_i c1 hi
      simp only [Except.ok.injEq, Prod.mk.injEq] at h
      simp only [opBody, alone_act, alone_reconfigureBody _ _ _ _ _ hi, alone_pure, h]
    · simp at h

/-! ### Balance -/

theorem bal_act {σ α β : Type} {x : Act σ α} {f : α → Act σ β} (h : Balanced 0 x) (hf : ∀ a, Balanced 0 (f a)) :
    Balanced 0 (x >>= f : Act σ β) := by
  show Balanced 0 (Cmd.bind x _)
  refine balanced_bind h fun r => ?_
  cases r with
  | ok a => exact hf a
  | error e => rfl

theorem bal_pure {σ α : Type} (a : α) : Balanced 0 (pure a : Act σ α) := rfl
theorem bal_look {σ α : Type} (f : σ → Py α) : Balanced 0 (look f) := fun _ => rfl
theorem bal_write {σ : Type} (f : σ → σ) : Balanced 0 (write f) := fun _ => rfl
theorem bal_raise {σ α : Type} (e : Err) : Balanced 0 (raise e : Act σ α) := rfl
theorem bal_tryWrite {σ : Type} (ok : σ → Bool) (e : Err) (f : σ → σ) : Balanced 0 (tryWrite ok e f) := fun _ => rfl
theorem bal_setLru (f : LRUStock.Stock String → LRUStock.Stock String) :
    Balanced 0 (setLru f : Act (Cache ν) Unit) := fun _ => rfl
theorem bal_sync {σ α : Type} {x : Act σ α} (h : Balanced 0 x) : Balanced 0 (synchronized x : Act σ α) := balanced_synchronized h
theorem bal_ite {σ α : Type} {b : Prop} [Decidable b] {x y : Act σ α} (hx : Balanced 0 x) (hy : Balanced 0 y) :
    Balanced 0 (if b then x else y : Act σ α) := by split <;> assumption

theorem bal_lruDiscard (k : String) : Balanced 0 (lruDiscard k : Act (Cache ν) Unit) := by
  unfold lruDiscard
  refine bal_act (bal_look _) fun b => bal_ite ?_ (bal_pure _)
  exact bal_act (bal_look _) fun _ => bal_act (bal_setLru _) fun _ => bal_act (bal_setLru _) fun _ => bal_tryWrite _ _ _

theorem bal_lruAdd (k : String) : Balanced 0 (lruAdd k : Act (Cache ν) Unit) := by
  unfold lruAdd
  exact bal_act (bal_look _) fun _ => bal_act (bal_setLru _) fun _ => bal_act (bal_setLru _) fun _ =>
    bal_act (bal_setLru _) fun _ => bal_act (bal_setLru _) fun _ => bal_act (bal_setLru _) fun _ => bal_setLru _

theorem bal_lruPop : Balanced 0 (lruPop : Act (Cache ν) (Option String)) :=
  bal_act (bal_look _) fun _ => bal_ite (bal_pure _) (bal_look _)

theorem bal_removeBody (k : String) : Balanced 0 (removeBody k : Act (Cache ν) Unit) := by
  unfold removeBody
  refine bal_act (bal_look _) fun b => bal_ite ?_ (bal_pure _)
  exact bal_act (bal_look _) fun _ => bal_act (bal_lruDiscard _) fun _ => bal_tryWrite _ _ _

theorem bal_removeA (k : String) : Balanced 0 (removeA k : Act (Cache ν) Unit) := bal_sync (bal_removeBody k)

theorem bal_shrinkLoop (nb : Nat) : ∀ fuel, Balanced 0 (shrinkLoop nb fuel : Act (Cache ν) Unit)
  | 0 => bal_raise _
  | fuel + 1 => by
    unfold shrinkLoop
    refine bal_act (bal_sync (bal_look _)) fun n => bal_act (bal_look _) fun b => bal_ite ?_ (bal_pure _)
    exact bal_act bal_lruPop fun k => bal_act (bal_removeA _) fun _ => bal_shrinkLoop nb fuel

theorem bal_shrinkA (fuel nb : Nat) : Balanced 0 (shrinkA fuel nb : Act (Cache ν) Unit) :=
  bal_act (bal_look _) fun _ => bal_ite (bal_shrinkLoop nb fuel) (bal_pure _)

theorem bal_hasExpiredA (e : ν × ℚ) (t : ℚ) : Balanced 0 (hasExpiredA e t : Act (Cache ν) Bool) :=
  bal_act (bal_look _) fun _ => bal_ite (bal_look _) (bal_pure _)

theorem bal_fetchBody (k : String) (fail : Option Bool) (t : ℚ) : Balanced 0 (fetchBody k fail t : Act (Cache ν) (Option ν)) := by
  unfold fetchBody
  refine bal_act (bal_look _) fun fl => bal_act (bal_look _) fun b => bal_ite ?_ (bal_ite (bal_raise _) (bal_pure _))
  refine bal_act (bal_look _) fun e => bal_act (bal_hasExpiredA _ _) fun x => bal_ite ?_ ?_
  · exact bal_act (bal_removeA _) fun _ => bal_ite (bal_raise _) (bal_pure _)
  · exact bal_act (bal_act (bal_lruDiscard _) fun _ => bal_lruAdd _) fun _ => bal_pure _

theorem bal_insertBody (fuel : Nat) (k : String) (v : ν) (t : ℚ) :
    Balanced 0 (insertBody fuel k v t : Act (Cache ν) Unit) := by
  unfold insertBody
  refine bal_act (bal_look _) fun b => ?_
  cases b
  · exact bal_act (bal_shrinkA _ _) fun _ => bal_act (bal_write _) fun _ => bal_lruAdd _
  · exact bal_act (bal_write _) fun _ => bal_lruAdd _

theorem bal_generateBody (fuel : Nat) (k : String) (g : Act (Cache ν) ν) (hg : Balanced 0 g) (t t' : ℚ) :
    Balanced 0 (generateBody fuel k g t t') := by
  unfold generateBody
  refine bal_act (bal_sync (bal_fetchBody _ _ _)) fun r => ?_
  cases r with
  | some v => exact bal_pure _
  | none => exact bal_act hg fun v => bal_act (bal_sync (bal_insertBody _ _ _ _)) fun _ => bal_pure _

theorem bal_reconfigureBody (fuel m : Nat) (x : ℚ) : Balanced 0 (reconfigureBody fuel m x : Act (Cache ν) Unit) :=
  bal_act (bal_write _) fun _ => bal_act (bal_write _) fun _ => bal_shrinkA _ _

theorem bal_clearBody : Balanced 0 (clearBody : Act (Cache ν) Unit) :=
  bal_act (bal_write _) fun _ => bal_act (bal_setLru _) fun _ => bal_act (bal_setLru _) fun _ => bal_setLru _

theorem bal_collectLoop (t : ℚ) : ∀ ks, Balanced 0 (collectLoop t ks : Act (Cache ν) Unit)
  | [] => bal_pure _
  | k :: ks => by
    unfold collectLoop
    refine bal_act (bal_look _) fun e => bal_act (bal_hasExpiredA _ _) fun x => ?_
    cases x
    · exact bal_collectLoop t ks
    · exact bal_act (bal_removeA _) fun _ => bal_collectLoop t ks

theorem bal_collectBodyA (t : ℚ) : Balanced 0 (collectBodyA t : Act (Cache ν) Unit) :=
  bal_act (bal_look _) fun _ => bal_collectLoop t _

theorem bal_opBody (fuel : Nat) (op : CacheOp ν) : Balanced 0 (opBody fuel op) := by
  cases op with
  | insert k v t => exact bal_act (bal_insertBody _ _ _ _) fun _ => bal_pure _
  | fetch k fail t => exact bal_fetchBody _ _ _
  | remove k => exact bal_act (bal_removeBody _) fun _ => bal_pure _
  | clear => exact bal_act bal_clearBody fun _ => bal_pure _
  | collect t => exact bal_act (bal_collectBodyA _) fun _ => bal_pure _
  | reconfigure m x => exact bal_act (bal_reconfigureBody _ _ _) fun _ => bal_pure _

theorem bal_memoBody {α : Type} (key : α → String) (f : α → ν) (fuel : Nat) (op : MemoOp α) :
    Balanced 0 (memoBody key f fuel op) := by
  cases op with
  | call a t t' => exact bal_act (bal_generateBody _ _ _ (bal_pure _) _ _) fun _ => bal_pure _
  | remove k => exact bal_act (bal_removeBody _) fun _ => bal_pure _
  | clear => exact bal_act bal_clearBody fun _ => bal_pure _
  | collect t => exact bal_act (bal_collectBodyA _) fun _ => bal_pure _
  | reconfigure m x => exact bal_act (bal_reconfigureBody _ _ _) fun _ => bal_pure _

/-! ### Memoised functions -/

theorem wf_memoStep {α : Type} {key : α → String} {f : α → ν} {fuel : Nat} {c c' : Cache ν} {op : MemoOp α}
    {o : Option (Py ν)} (hw : c.values.WF) (h : memoStep key f fuel c op = .ok (c', o)) : c'.values.WF := by
  cases op with
  | call a t t' =>
    simp only [memoStep] at h
    have hfw := wf_fetch (k := key a) (fail := none) (t := t) hw
    unfold fetchWithGenerator at h
    rcases hft : fetch c (key a) none t with ⟨c1, r⟩
    rw [hft] at h hfw
    rcases r with e | (_ | v)
    · simp only at h
      cases e <;> simp only [Except.ok.injEq, Prod.mk.injEq, reduceCtorEq] at h <;> (rw [← h.1]; exact hfw)
    · simp only at h
      cases hi : GenericCache.insert fuel c1 (key a) (f a) t' with
      | ok c2 =>
        rw [hi] at h
        simp only [Except.ok.injEq, Prod.mk.injEq] at h
        rw [← h.1]; exact wf_insert hfw hi
      | error e =>
        rw [hi] at h
        cases e <;> simp only [Except.ok.injEq, Prod.mk.injEq, reduceCtorEq] at h <;> (rw [← h.1]; exact hfw)
    · simp only [Except.ok.injEq, Prod.mk.injEq] at h
      rw [← h.1]; exact hfw
  | remove k => simp only [memoStep, Except.ok.injEq, Prod.mk.injEq] at h; rw [← h.1]; exact wf_remove hw k
  | clear =>
    simp only [memoStep, Except.ok.injEq, Prod.mk.injEq] at h; rw [← h.1]
    simp [GenericCache.clear, AD.WF, AD.keys]
  | collect t => simp only [memoStep, Except.ok.injEq, Prod.mk.injEq] at h; rw [← h.1]; exact wf_collect hw t
  | reconfigure m x =>
    simp only [memoStep] at h
    split at h
    · rename_i c1 hi
      simp only [Except.ok.injEq, Prod.mk.injEq] at h; rw [← h.1]; exact wf_reconfigure hw hi
    · simp at h

theorem shrink_error {fuel nb : Nat} {c : Cache ν} {e : Err} (h : shrink fuel nb c = .error e) : e = .fuel := by
  have loop : ∀ (fuel : Nat) (c : Cache ν),
      Py.whileLoop (fun c : Cache ν => .ok (decide (c.values.length + nb > c.maxsize))) shrinkBody fuel c = .error e →
      e = .fuel := by
    intro fuel
    induction fuel with
    | zero => intro c h; simp only [Py.whileLoop, Except.error.injEq] at h; exact h.symm
    | succ fuel ih =>
      intro c h
      simp only [Py.whileLoop] at h
      by_cases hb : c.values.length + nb > c.maxsize
      · simp only [hb, decide_true, shrinkBody] at h
        exact ih _ h
      · simp only [hb, decide_false, reduceCtorEq] at h
  unfold shrink at h
  split at h
  · exact loop fuel c h
  · simp at h

theorem insert_error {fuel : Nat} {c : Cache ν} {k : String} {v : ν} {t : ℚ} {e : Err}
    (h : GenericCache.insert fuel c k v t = .error e) : e = .fuel := by
  unfold GenericCache.insert at h
  split at h
  · simp at h
  · split at h
    · simp at h
    · rename_i e' he
      simp only [Except.error.injEq] at h
      rw [← h]; exact shrink_error he

/-- A memoised call that runs alone. -/
theorem alone_memo {α : Type} {key : α → String} {f : α → ν} {fuel : Nat} {c c' : Cache ν} {op : MemoOp α}
    {o : Option (Py ν)} (hw : c.values.WF) (h : memoStep key f fuel c op = .ok (c', o)) :
    alone (memoImpl key f fuel op) c = (c', match o with
      | none => .ok none
      | some r => r.map some) := by
  refine (alone_synchronized _ _).trans ?_
  cases op with
  | call a t t' =>
    simp only [memoStep] at h
    unfold fetchWithGenerator at h
    simp only [memoBody, generateBody, alone_act, alone_fetchA]
    rcases hft : fetch c (key a) none t with ⟨c1, r⟩
    rw [hft] at h
    rcases r with e | (_ | v)
    · simp only at h ⊢
      cases e <;> simp only [Except.ok.injEq, Prod.mk.injEq, reduceCtorEq] at h <;>
        (obtain ⟨rfl, rfl⟩ := h; rfl)
    · simp only at h ⊢
      cases hi : GenericCache.insert fuel c1 (key a) (f a) t' with
      | ok c2 =>
        rw [hi] at h
        simp only [Except.ok.injEq, Prod.mk.injEq] at h
        obtain ⟨rfl, rfl⟩ := h
        simp only [alone_act, alone_pure, alone_insertA _ _ _ _ _ _ hi, Except.map]
      | error e =>
        have := insert_error hi
        subst this
        rw [hi] at h
        simp at h
    · simp only [Except.ok.injEq, Prod.mk.injEq] at h
      obtain ⟨rfl, rfl⟩ := h
      simp only [alone_pure, Except.map]
  | remove k =>
    simp only [memoStep, Except.ok.injEq, Prod.mk.injEq] at h
    obtain ⟨rfl, rfl⟩ := h
    simp only [memoBody, alone_act, alone_removeBody, alone_pure]
  | clear =>
    simp only [memoStep, Except.ok.injEq, Prod.mk.injEq] at h
    obtain ⟨rfl, rfl⟩ := h
    simp only [memoBody, alone_act, alone_clearBody, alone_pure]
  | collect t =>
    simp only [memoStep, Except.ok.injEq, Prod.mk.injEq] at h
    obtain ⟨rfl, rfl⟩ := h
    simp only [memoBody, alone_act, alone_collectBodyA t c hw, alone_pure]
  | reconfigure m x =>
    simp only [memoStep] at h
    split at h
    · rename_i c1 hi
      simp only [Except.ok.injEq, Prod.mk.injEq] at h
      obtain ⟨rfl, rfl⟩ := h
      simp only [memoBody, alone_act, alone_reconfigureBody _ _ _ _ _ hi, alone_pure]
    · simp at h

/-- The result of an entry of the log that is a memoised call. -/
def callResult {ι α : Type} (e : ι × MemoOp α × Py (Option ν)) : Option (Py (Option ν)) :=
  match e.2.1 with
  | .call _ _ _ => some e.2.2
  | _ => none

/-- Is it a memoised call? -/
def isCall {α : Type} : MemoOp α → Bool
  | .call _ _ _ => true
  | _ => false

theorem memoStep_call {α : Type} {key : α → String} {f : α → ν} {fuel : Nat} {c c' : Cache ν} {op : MemoOp α}
    {o : Option (Py ν)} (h : memoStep key f fuel c op = .ok (c', o)) :
    o.isSome = isCall op := by
  cases op with
  | call a t t' =>
    simp only [memoStep] at h
    split at h
    · simp at h
    · simp only [Except.ok.injEq, Prod.mk.injEq] at h; rw [← h.2]; rfl
  | remove k => simp only [memoStep, Except.ok.injEq, Prod.mk.injEq] at h; rw [← h.2]; rfl
  | clear => simp only [memoStep, Except.ok.injEq, Prod.mk.injEq] at h; rw [← h.2]; rfl
  | collect t => simp only [memoStep, Except.ok.injEq, Prod.mk.injEq] at h; rw [← h.2]; rfl
  | reconfigure m x =>
    simp only [memoStep] at h
    split at h
    · simp only [Except.ok.injEq, Prod.mk.injEq] at h; rw [← h.2]; rfl
    · simp at h

theorem serial_memo {ι α : Type} (key : α → String) (f : α → ν) (fuel : Nat) :
    ∀ {c : Cache ν} {log : List (ι × MemoOp α × Py (Option ν))} {s : Cache ν},
    Serial (memoImpl key f fuel) c log s → c.values.WF → ∀ {c' : Cache ν} {os : List (Py ν)},
    memoRun key f fuel c (log.map fun e => e.2.1) = .ok (c', os) → log.filterMap callResult = os.map (Except.map some) := by
  intro c log s h
  induction h with
  | nil s =>
    intro _ c' os hr
    simp only [List.map_nil, memoRun, Except.ok.injEq, Prod.mk.injEq] at hr
    rw [← hr.2]; rfl
  | call s i k log s' h ih =>
    intro hw c' os hr
    simp only [List.map_cons, memoRun] at hr
    cases hs : memoStep key f fuel s k with
    | error e => rw [hs] at hr; simp at hr
    | ok r =>
      obtain ⟨c1, o⟩ := r
      rw [hs] at hr
      dsimp only at hr
      cases hr2 : memoRun key f fuel c1 (log.map fun e => e.2.1) with
      | error e => rw [hr2] at hr; simp at hr
      | ok r2 =>
        obtain ⟨c2, os2⟩ := r2
        rw [hr2] at hr
        simp only [Except.ok.injEq, Prod.mk.injEq] at hr
        have ha := alone_memo hw hs
        have hc := memoStep_call hs
        rw [ha] at ih ⊢
        have e2 := ih (wf_memoStep hw hs) hr2
        rw [← hr.2, List.map_append, ← e2]
        cases o with
        | none =>
          have : callResult (i, k, (Except.ok none : Py (Option ν))) = none := by
            cases k <;> simp_all [callResult, isCall]
          simp [List.filterMap_cons, this]
        | some r =>
          have : callResult (i, k, (r.map some : Py (Option ν))) = some (r.map some) := by
            cases k <;> simp_all [callResult, isCall]
          simp [List.filterMap_cons, this]

theorem memo_values {ι α : Type} (f : α → ν) : ∀ (log : List (ι × MemoOp α × Py (Option ν))),
    log.filterMap callResult = ((log.map fun e => e.2.1).filterMap fun op => match op with
      | .call a _ _ => some (Except.ok (f a) : Py ν)
      | _ => none).map (Except.map some) →
    ∀ i a t t' r, (i, MemoOp.call a t t', r) ∈ log → r = .ok (some (f a)) := by
  intro log
  induction log with
  | nil => intro _ i a t t' r h; simp at h
  | cons e log ih =>
    intro h i a t t' r hm
    obtain ⟨j, op, r'⟩ := e
    cases op with
    | call a' u u' =>
      simp only [callResult, List.filterMap_cons, List.map_cons, List.cons.injEq] at h
      rcases List.mem_cons.1 hm with hm | hm
      · simp only [Prod.mk.injEq, MemoOp.call.injEq] at hm
        obtain ⟨_, ⟨rfl, _, _⟩, rfl⟩ := hm
        exact h.1
      · exact ih h.2 i a t t' r hm
    | remove k =>
      exact ih h i a t t' r ((List.mem_cons.1 hm).resolve_left (by simp))
    | clear => exact ih h i a t t' r ((List.mem_cons.1 hm).resolve_left (by simp))
    | collect u => exact ih h i a t t' r ((List.mem_cons.1 hm).resolve_left (by simp))
    | reconfigure m x => exact ih h i a t t' r ((List.mem_cons.1 hm).resolve_left (by simp))

/-! ### Unsynchronized membership tests -/

theorem callsOf_tt {κ ρ : Type} (k : κ) (r : ρ) (log : List (Bool × κ × ρ)) :
    callsOf ((true, k, r) :: log) true = (k, r) :: callsOf log true := by simp [callsOf]
theorem callsOf_ff {κ ρ : Type} (k : κ) (r : ρ) (log : List (Bool × κ × ρ)) :
    callsOf ((false, k, r) :: log) false = (k, r) :: callsOf log false := by simp [callsOf]
theorem callsOf_tf {κ ρ : Type} (k : κ) (r : ρ) (log : List (Bool × κ × ρ)) :
    callsOf ((true, k, r) :: log) false = callsOf log false := by simp [callsOf]
theorem callsOf_ft {κ ρ : Type} (k : κ) (r : ρ) (log : List (Bool × κ × ρ)) :
    callsOf ((false, k, r) :: log) true = callsOf log true := by simp [callsOf]

theorem no_order (v w : ν) (log : List (Bool × Call ν × Result ν)) (s : Cache ν)
    (hs : Serial (callImpl 3) (GenericCache.store (GenericCache.empty 1 0 false : Cache ν) "a" v 0) log s)
    (hf : (callsOf log false).map Prod.fst = [.op (.insert "b" w 1)])
    (ht : callsOf log true = [(.contains "a", .bool false), (.contains "b", .bool false)]) : False := by
  cases hs with
  | nil => simp [callsOf] at hf
  | call _ i k log _ hs =>
    cases i with
    | true =>
      rw [callsOf_tt, List.cons.injEq, Prod.mk.injEq] at ht
      obtain ⟨⟨rfl, h⟩, _⟩ := ht
      have : (alone (callImpl 3 (.contains "a" : Call ν)) (GenericCache.store (GenericCache.empty 1 0 false) "a" v 0)).2 =
        .bool true := rfl
      rw [this] at h; simp at h
    | false =>
      rw [callsOf_ft] at ht
      rw [callsOf_ff, List.map_cons, List.cons.injEq] at hf
      obtain ⟨hk, hf⟩ := hf
      dsimp only at hk
      subst hk
      cases hs with
      | nil => simp [callsOf] at ht
      | call _ i k log _ hs =>
        cases i with
        | false => rw [callsOf_ff] at hf; simp at hf
        | true =>
          rw [callsOf_tf] at hf
          rw [callsOf_tt, List.cons.injEq, Prod.mk.injEq] at ht
          obtain ⟨⟨rfl, h⟩, ht⟩ := ht
          cases hs with
          | nil => simp [callsOf] at ht
          | call _ i k log _ hs =>
            cases i with
            | false => rw [callsOf_ff] at hf; simp at hf
            | true =>
              rw [callsOf_tt, List.cons.injEq, Prod.mk.injEq] at ht
              obtain ⟨⟨rfl, h⟩, _⟩ := ht
              have : (alone (callImpl 3 (.contains "b" : Call ν)) (alone (callImpl 3 (.contains "a" : Call ν))
                  (alone (callImpl 3 (.op (.insert "b" w 1))) (GenericCache.store (GenericCache.empty 1 0 false) "a" v 0)).1).1).2 =
                .bool true := rfl
              rw [this] at h; simp at h

/-- `n` steps of a program that is not interrupted, with the number of times it holds the lock. -/
def solo {σ ρ : Type} : Nat → Nat × Cmd σ ρ × σ → Option (Nat × Cmd σ ρ × σ)
  | 0, x => some x
  | _ + 1, (_, .ret _, _) => none
  | n + 1, (l, .step u f, s) => solo n (l, f s, u s)
  | n + 1, (l, .acquire c, s) => solo n (l + 1, c, s)
  | _ + 1, (0, .release _, _) => none
  | n + 1, (l + 1, .release c, s) => solo n (l, c, s)

/-- The lock held `l` times by `i`. -/
def lockOf {ι : Type} (i : ι) : Nat → Option (ι × Nat)
  | 0 => none
  | l + 1 => some (i, l + 1)

theorem exec_solo {σ ρ ι κ : Type} [DecidableEq ι] (impl : κ → Cmd σ ρ) (i : ι) (k : κ) : ∀ (n l : Nat) (p : Cmd σ ρ)
    (c : Conf σ ρ ι κ) (l' : Nat) (p' : Cmd σ ρ) (s' : σ), c.lock = lockOf i l → (c.th i).cur = some (k, p) →
    solo n (l, p, c.st) = some (l', p', s') →
    (exec impl c (List.replicate n i)).st = s' ∧ ∀ j, j ≠ i → (exec impl c (List.replicate n i)).th j = c.th j := by
  intro n
  induction n with
  | zero =>
    intro l p c l' p' s' _ _ h
    simp only [solo, Option.some.injEq, Prod.mk.injEq] at h
    exact ⟨h.2.2, fun _ _ => rfl⟩
  | succ n ih =>
    intro l p c l' p' s' hl hc h
    cases p with
    | ret r => simp [solo] at h
    | step u f =>
      have e : stepThread impl c i = { c.put i { c.th i with cur := some (k, f c.st) } with st := u c.st } := by
        unfold stepThread; rw [hc]
      obtain ⟨h1, h2⟩ := ih l (f c.st) (stepThread impl c i) l' p' s' (by rw [e]; exact hl)
        (by rw [e]; show ((c.put i _).th i).cur = _; rw [put_self]) (by rw [e]; exact h)
      exact ⟨h1, fun j hj => (h2 j hj).trans (by rw [e]; exact put_ne c hj _)⟩
    | acquire q =>
      have e : stepThread impl c i = { c.put i { c.th i with cur := some (k, q) } with lock := lockOf i (l + 1) } := by
        unfold stepThread; rw [hc]; dsimp only; rw [hl]; cases l <;> simp [lockOf, lockAcquire]
      obtain ⟨h1, h2⟩ := ih (l + 1) q (stepThread impl c i) l' p' s' (by rw [e])
        (by rw [e]; show ((c.put i _).th i).cur = _; rw [put_self]) (by rw [e]; exact h)
      exact ⟨h1, fun j hj => (h2 j hj).trans (by rw [e]; exact put_ne c hj _)⟩
    | release q =>
      cases l with
      | zero => simp [solo] at h
      | succ l =>
        have e : stepThread impl c i = { c.put i { c.th i with cur := some (k, q) } with lock := lockOf i l } := by
          unfold stepThread; rw [hc]; dsimp only; rw [hl]; cases l <;> simp [lockOf, lockRelease]
        obtain ⟨h1, h2⟩ := ih l q (stepThread impl c i) l' p' s' (by rw [e])
          (by rw [e]; show ((c.put i _).th i).cur = _; rw [put_self]) (by rw [e]; exact h)
        exact ⟨h1, fun j hj => (h2 j hj).trans (by rw [e]; exact put_ne c hj _)⟩

/-- A thread that makes two membership tests. -/
theorem exec_contains (fuel : Nat) (a b : String) (c : Conf (Cache ν) (Result ν) Bool (Call ν))
    (h : c.th true = ⟨none, [.contains a, .contains b], []⟩) :
    ((exec (callImpl fuel) c (List.replicate 6 true)).th true).done =
      [(.contains a, .bool (c.st.values.has a)), (.contains b, .bool (c.st.values.has b))] := by
  simp [exec, List.replicate, stepThread, h, Conf.put, callImpl]

/-- A thread begins a call and is interrupted after `n` steps; another then makes two membership tests. -/
theorem exec_between (fuel n : Nat) (k : Call ν) (a b : String) (c : Conf (Cache ν) (Result ν) Bool (Call ν))
    (hl : c.lock = none) (hf : c.th false = ⟨none, [k], []⟩) (ht : c.th true = ⟨none, [.contains a, .contains b], []⟩)
    {l : Nat} {p : Cmd (Cache ν) (Result ν)} {s : Cache ν} (h : solo n (0, callImpl fuel k, c.st) = some (l, p, s)) :
    ((exec (callImpl fuel) c ([false] ++ List.replicate n false ++ List.replicate 6 true)).th true).done =
      [(.contains a, .bool (s.values.has a)), (.contains b, .bool (s.values.has b))] := by
  rw [exec_append, exec_append]
  have e : exec (callImpl fuel) c [false] = c.put false ⟨some (k, callImpl fuel k), [], []⟩ := by
    show stepThread (callImpl fuel) c false = _
    unfold stepThread; rw [hf]
  rw [e]
  obtain ⟨e1, e2⟩ := exec_solo (callImpl fuel) false k n 0 _ (c.put false ⟨some (k, callImpl fuel k), [], []⟩) l p s hl
    (by rw [put_self]) h
  have := exec_contains fuel a b _ ((e2 true (by simp)).trans ((put_ne c (by simp) _).trans ht))
  rw [e1] at this
  exact this

/-- The insertion of "b" is interrupted between the removal of "a" and the entry of "b". -/
theorem interrupted (v w : ν) : ∃ l p s, solo 19
    (0, callImpl 3 (.op (.insert "b" w 1)), GenericCache.store (GenericCache.empty 1 0 false : Cache ν) "a" v 0) = some (l, p, s) ∧
    s.values.has "a" = false ∧ s.values.has "b" = false :=
  ⟨_, _, _, rfl, rfl, rfl⟩

/-! ### Logs -/

theorem mem_callsOf {ι κ ρ : Type} [DecidableEq ι] {log : List (ι × κ × ρ)} {i : ι} {e : κ × ρ} :
    e ∈ callsOf log i ↔ (i, e.1, e.2) ∈ log := by
  unfold callsOf
  rw [List.mem_map]
  constructor
  · rintro ⟨⟨j, k, r⟩, h, rfl⟩
    rw [List.mem_filter] at h
    have : j = i := by simpa using h.2
    subst this
    exact h.1
  · intro h
    exact ⟨(i, e.1, e.2), List.mem_filter.2 ⟨h, by simp⟩, rfl⟩

theorem length_log {ι κ ρ : Type} [DecidableEq ι] [Fintype ι] (log : List (ι × κ × ρ)) :
    log.length = ∑ i, (callsOf log i).length := by
  induction log with
  | nil => simp [callsOf]
  | cons e log ih =>
    have : ∀ i, (callsOf (e :: log) i).length = (if e.1 = i then 1 else 0) + (callsOf log i).length := by
      intro i
      unfold callsOf
      by_cases h : e.1 = i
      · simp [h]; omega
      · simp [h]
    simp only [this, Finset.sum_add_distrib, ← ih, Finset.sum_ite_eq, Finset.mem_univ, if_true, List.length_cons]
    omega

end Verif.CacheThreads
