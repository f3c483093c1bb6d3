import Verif.Model.Counter
import Verif.Lemmas.Base

set_option linter.unusedSectionVars false

namespace Verif.Counter
open Verif
variable {κ : Type} [DecidableEq κ]

theorem count_set (c : Cnt κ) (x y : κ) (n : Int) :
    count (c.set x n) y = if y = x then n else count c y := by
  unfold count; rw [AD.get?_set]; split <;> simp

theorem updateIter_count (l : List κ) (c : Cnt κ) (x : κ) :
    count (updateIter c l) x = count c x + l.count x := by
  unfold updateIter
  induction l generalizing c with
  | nil => simp
  | cons y l ih =>
    rw [List.foldl_cons, ih]
    rw [count_set, List.count_cons]
    by_cases h : x = y
    · subst h; simp [count]; ring
    · have : ¬ y = x := fun h' => h h'.symm
      simp [h, this]

theorem updateIter_wf (l : List κ) (c : Cnt κ) (h : c.WF) : (updateIter c l).WF := by
  unfold updateIter
  induction l generalizing c with
  | nil => exact h
  | cons y l ih => rw [List.foldl_cons]; exact ih _ (h.set _ _)

theorem updateIter_mem (l : List κ) (c : Cnt κ) (x : κ) :
    x ∈ (updateIter c l).keys ↔ x ∈ c.keys ∨ x ∈ l := by
  unfold updateIter
  induction l generalizing c with
  | nil => simp
  | cons y l ih =>
    rw [List.foldl_cons, ih, AD.keys_set]
    split
    · rename_i h; simp only [List.mem_cons]
      constructor
      · rintro (h | h) <;> simp [h]
      · rintro (h | rfl | h) <;> simp [*]
    · simp only [List.mem_append, List.mem_cons, List.not_mem_nil, or_false]; tauto

theorem count_cons (e : κ × Int) (m : AD κ Int) (x : κ) :
    count (e :: m) x = if e.1 = x then e.2 else count m x := by
  unfold count; rw [AD.get?_cons]; split <;> simp

theorem foldl_set_add (m : AD κ Int) (hm : m.WF) (c : Cnt κ) (x : κ) :
    count (m.foldl (fun c e => c.set e.1 ((c.get? e.1).getD 0 + e.2)) c) x = count c x + count m x := by
  induction m generalizing c with
  | nil => simp [count]
  | cons e m ih =>
    have hm' : AD.WF m := (List.nodup_cons.1 hm).2
    have hn : e.1 ∉ AD.keys m := (List.nodup_cons.1 hm).1
    rw [List.foldl_cons, ih hm', count_set, count_cons]
    by_cases h : x = e.1
    · subst h
      have : count m e.1 = 0 := by
        unfold count; rw [(AD.not_mem_keys_iff m e.1).1 hn]; rfl
      simp [this]; rfl
    · have : ¬ e.1 = x := fun h' => h h'.symm
      simp [h, this]

theorem foldl_set_copy (m : AD κ Int) (hm : m.WF) (c : Cnt κ) (x : κ) :
    (m.foldl (fun c e => c.set e.1 e.2) c).get? x = if x ∈ m.keys then m.get? x else c.get? x := by
  induction m generalizing c with
  | nil => simp [AD.keys]
  | cons e m ih =>
    have hm' : AD.WF m := (List.nodup_cons.1 hm).2
    have hn : e.1 ∉ AD.keys m := (List.nodup_cons.1 hm).1
    rw [List.foldl_cons, ih hm', AD.get?_set, AD.get?_cons]
    have hk : AD.keys (e :: m) = e.1 :: AD.keys m := rfl
    rw [hk]
    by_cases h : x = e.1
    · subst h; simp [hn]
    · have : ¬ e.1 = x := fun h' => h h'.symm
      simp [h, this]

theorem foldl_set_wf {f : Cnt κ → κ × Int → Int} (m : AD κ Int) (c : Cnt κ) (h : c.WF) :
    (m.foldl (fun c e => c.set e.1 (f c e)) c).WF := by
  induction m generalizing c with
  | nil => exact h
  | cons e m ih => rw [List.foldl_cons]; exact ih _ (h.set _ _)

theorem foldl_op (g : κ → Int) (l : List κ) (hl : l.Nodup) (r : Cnt κ) (x : κ) :
    (l.foldl (fun r y => let n := g y; if n > 0 then r.set y n else r) r).get? x =
      if x ∈ l ∧ g x > 0 then some (g x) else r.get? x := by
  induction l generalizing r with
  | nil => simp
  | cons y l ih =>
    have hn := List.nodup_cons.1 hl
    rw [List.foldl_cons, ih hn.2]
    by_cases h : x = y
    · subst h
      simp only [hn.1, false_and, if_false, List.mem_cons, true_or, true_and]
      split <;> simp
    · simp only [List.mem_cons, h, false_or]
      by_cases hx : x ∈ l ∧ g x > 0
      · simp [hx]
      · simp only [hx, if_false]
        split
        · rw [AD.get?_set_ne _ _ h]
        · rfl

theorem foldl_op_wf (g : κ → Int) (l : List κ) (r : Cnt κ) (h : r.WF) :
    (l.foldl (fun r y => let n := g y; if n > 0 then r.set y n else r) r).WF := by
  induction l generalizing r with
  | nil => exact h
  | cons y l ih =>
    rw [List.foldl_cons]
    apply ih
    dsimp only
    split
    · exact h.set _ _
    · exact h

theorem unionKeys_nodup {c d : Cnt κ} (hc : c.WF) (hd : d.WF) : (unionKeys c d).Nodup := by
  unfold unionKeys
  rw [List.nodup_append]
  refine ⟨hc, hd.sublist List.filter_sublist, ?_⟩
  intro a ha b hb
  have := (List.mem_filter.1 hb).2
  rintro rfl
  simp [ha] at this

theorem mem_unionKeys (c d : Cnt κ) (x : κ) : x ∈ unionKeys c d ↔ x ∈ c.keys ∨ x ∈ d.keys := by
  unfold unionKeys
  rw [List.mem_append, List.mem_filter]
  simp only [decide_eq_true_eq]
  tauto

theorem count_not_mem {c : Cnt κ} {x : κ} (h : x ∉ c.keys) : count c x = 0 := by
  unfold count; rw [(AD.not_mem_keys_iff c x).1 h]; rfl

theorem combine_get (op : Int → Int → Int) (h0 : op 0 0 ≤ 0) {c d : Cnt κ} (hc : c.WF) (hd : d.WF)
    (x : κ) : (combine op c d).get? x =
      if op (count c x) (count d x) > 0 then some (op (count c x) (count d x)) else none := by
  unfold combine
  have := foldl_op (fun x => op (count c x) (count d x)) _ (unionKeys_nodup hc hd) [] x
  dsimp only at this ⊢
  rw [this]
  simp only [mem_unionKeys]
  by_cases hm : x ∈ c.keys ∨ x ∈ d.keys
  · simp [hm]
  · have h1 : count c x = 0 := count_not_mem fun h => hm (.inl h)
    have h2 : count d x = 0 := count_not_mem fun h => hm (.inr h)
    have : ¬ (op 0 0 > 0) := by omega
    simp [hm, h1, h2, this]

theorem andLoop_get {c d : Cnt κ} (hd : d.WF) (x : κ) : (andLoop c d).get? x =
      if min (count c x) (count d x) > 0 then some (min (count c x) (count d x)) else none := by
  unfold andLoop
  have hnd : (d.keys.filter (fun x => c.has x)).Nodup := List.Nodup.sublist List.filter_sublist hd
  have := foldl_op (fun x => min (count c x) (count d x)) _ hnd [] x
  dsimp only at this ⊢
  rw [this]
  simp only [List.mem_filter]
  by_cases hm : min (count c x) (count d x) > 0
  · have h1 : x ∈ d.keys := by
      by_contra h; rw [count_not_mem h] at hm; omega
    have h2 : x ∈ c.keys := by
      by_contra h; rw [count_not_mem h] at hm; omega
    have h3 : c.has x = true := by
      rw [AD.mem_keys_iff] at h2; exact h2
    simp [hm, h1, h3]
  · simp [hm]

theorem and_get {c d : Cnt κ} (hc : c.WF) (hd : d.WF) (x : κ) : (and c d).get? x =
      if min (count c x) (count d x) > 0 then some (min (count c x) (count d x)) else none := by
  unfold Counter.and
  split
  · rw [andLoop_get hc, min_comm]
  · rw [andLoop_get hd]

theorem elements_count {c : Cnt κ} (hc : c.WF) (x : κ) :
    (elements c).count x = (count c x).toNat := by
  unfold elements
  induction c with
  | nil => simp [count]
  | cons e c ih =>
    have hm' : AD.WF c := (List.nodup_cons.1 hc).2
    have hn : e.1 ∉ AD.keys c := (List.nodup_cons.1 hc).1
    rw [List.flatMap_cons, List.count_append, ih hm', count_cons, List.count_replicate]
    by_cases h : e.1 = x
    · have : count c x = 0 := count_not_mem (h ▸ hn)
      simp [h, this]
    · simp [h]

end Verif.Counter
