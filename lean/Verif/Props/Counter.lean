import Verif.Lemmas.Counter

/-! Property C22 (lib/daeso/thirdparty/counter.py). -/
namespace Verif.Props.Counter
open Verif Verif.Counter

variable {κ : Type} [DecidableEq κ]

/-- Counters reachable through the API: built from iterables, mappings, item assignments, deletions and the
four operators. -/
inductive Reach : Cnt κ → Prop
  | empty : Reach []
  | set {c} (x n) : Reach c → Reach (c.set x n)
  | updateIter {c} (l) : Reach c → Reach (updateIter c l)
  | updateMap {c d} : Reach c → Reach d → Reach (updateMap c d)
  | delItem {c} (x) : Reach c → Reach (delItem c x)
  | add {c d} : Reach c → Reach d → Reach (add c d)
  | sub {c d} : Reach c → Reach d → Reach (sub c d)
  | or {c d} : Reach c → Reach d → Reach (or c d)
  | and {c d} : Reach c → Reach d → Reach (and c d)

private theorem updateMap_wf {c d : Cnt κ} (hc : c.WF) : (updateMap c d).WF := by
  unfold updateMap
  split
  · exact foldl_set_wf (f := fun _ e => e.2) d c hc
  · exact foldl_set_wf d c hc

/-- C22: every reachable counter lists each element at most once. -/
theorem counter_keys_unique {c : Cnt κ} (h : Reach c) : c.keys.Nodup := by
  induction h with
  | empty => exact AD.WF.nil
  | set x n _ ih => exact AD.WF.set ih x n
  | updateIter l _ ih => exact updateIter_wf l _ ih
  | updateMap _ _ ih _ => exact updateMap_wf ih
  | delItem x _ ih => unfold Counter.delItem; split; exact AD.WF.del ih x; exact ih
  | add _ _ _ _ => exact foldl_op_wf _ _ _ AD.WF.nil
  | sub _ _ _ _ => exact foldl_op_wf _ _ _ AD.WF.nil
  | or _ _ _ _ => exact foldl_op_wf _ _ _ AD.WF.nil
  | and _ _ _ _ => unfold Counter.and; split <;> exact foldl_op_wf _ _ _ AD.WF.nil

/-- C22: updating from an iterable adds the numbers of occurrences; the elements present are the old
ones and those of the iterable. -/
theorem counter_update (c : Cnt κ) (l : List κ) (x : κ) :
    count (updateIter c l) x = count c x + l.count x ∧
    (x ∈ (updateIter c l).keys ↔ x ∈ c.keys ∨ x ∈ l) :=
  ⟨updateIter_count l c x, updateIter_mem l c x⟩

/-- C22: `Counter(iterable)` counts occurrences. -/
theorem counter_of_iterable (l : List κ) (x : κ) :
    count (ofIter l) x = l.count x ∧ (x ∈ (ofIter l).keys ↔ x ∈ l) := by
  obtain ⟨h1, h2⟩ := counter_update ([] : Cnt κ) l x
  exact ⟨by simpa [count, ofIter] using h1, by simpa [AD.keys, ofIter] using h2⟩

/-- C22: updating from a counter adds its counts, on the fast path as well. -/
theorem counter_update_mapping {c d : Cnt κ} (hd : Reach d) (x : κ) :
    count (updateMap c d) x = count c x + count d x := by
  have hw := counter_keys_unique hd
  unfold updateMap
  split
  · rename_i h
    have hc : c = [] := List.isEmpty_iff.1 h
    subst hc
    unfold count
    rw [foldl_set_copy d hw]
    split
    · simp
    · rename_i hk
      rw [(AD.not_mem_keys_iff d x).1 hk]; simp
  · exact foldl_set_add d hw c x

/-- C22: a copy has the same counts and the same elements. -/
theorem counter_copy {c : Cnt κ} (hc : Reach c) (x : κ) : (copy c).get? x = c.get? x := by
  unfold copy updateMap
  simp only [List.isEmpty_nil, if_true]
  rw [foldl_set_copy c (counter_keys_unique hc)]
  split
  · rfl
  · rename_i hk; rw [(AD.not_mem_keys_iff c x).1 hk]; rfl

/-- C22: deletion never fails, removes the element and touches no other. -/
theorem counter_del (c : Cnt κ) (x y : κ) :
    (delItem c x).get? y = if y = x then none else c.get? y := by
  unfold delItem
  split
  · exact AD.get?_del c x y
  · rename_i h
    split
    · rename_i hy; subst hy
      simpa [AD.has] using h
    · rfl

/-- The entry a result should have for an element whose combined count is `n`. -/
def kept (n : Int) : Option Int := if n > 0 then some n else none

/-- C22: the operators give sum, difference, maximum and minimum of the counts, and keep an element
exactly when this is positive. -/
theorem counter_operators {c d : Cnt κ} (hc : Reach c) (hd : Reach d) (x : κ) :
    (add c d).get? x = kept (count c x + count d x) ∧
    (sub c d).get? x = kept (count c x - count d x) ∧
    (or c d).get? x = kept (max (count c x) (count d x)) ∧
    (and c d).get? x = kept (min (count c x) (count d x)) := by
  have wc := counter_keys_unique hc
  have wd := counter_keys_unique hd
  exact ⟨combine_get _ (by simp) wc wd x, combine_get _ (by simp) wc wd x,
    combine_get _ (by simp) wc wd x, and_get wc wd x⟩

/-- C22: `elements()` repeats each element as often as its count, ignoring counts below one; counting
the elements again gives back the positive part. -/
theorem counter_elements {c : Cnt κ} (hc : Reach c) (x : κ) :
    (elements c).count x = (count c x).toNat ∧ count (ofIter (elements c)) x = max 0 (count c x) := by
  have h := elements_count (counter_keys_unique hc) x
  refine ⟨h, ?_⟩
  rw [(counter_of_iterable _ x).1, h]
  omega

/-- C22: the elements of `Counter(l)` are those of `l` in some order. -/
theorem elements_of_counter (l : List κ) : (elements (ofIter l)).Perm l := by
  rw [List.perm_iff_count]
  intro x
  have := (counter_elements (Reach.updateIter l Reach.empty) x).1
  unfold ofIter
  rw [this, updateIter_count]
  simp [count]

/-- C22: `most_common()` lists every element with its count once, by decreasing count. -/
theorem most_common_all (c : Cnt κ) :
    (mostCommon c none).Perm c ∧ (mostCommon c none).Pairwise (fun a b => b.2 ≤ a.2) := by
  constructor
  · exact List.mergeSort_perm _ _
  · have := List.pairwise_mergeSort (le := fun a b : κ × Int => decide (b.2 ≤ a.2))
      (by intro a b c; simp only [decide_eq_true_eq]; omega)
      (by intro a b; simp only [Bool.or_eq_true, decide_eq_true_eq]; omega) c
    simpa [mostCommon] using this

/-- C22: `most_common(n)` lists the first n of these, so nothing left out is more common than anything
listed. -/
theorem most_common_n (c : Cnt κ) (n : Nat) :
    (mostCommon c (some n)).length = min n c.length ∧
    ∃ rest, (mostCommon c (some n) ++ rest).Perm c ∧
      (mostCommon c (some n)).Pairwise (fun a b => b.2 ≤ a.2) ∧
      ∀ a ∈ mostCommon c (some n), ∀ b ∈ rest, b.2 ≤ a.2 := by
  obtain ⟨hp, hs⟩ := most_common_all c
  have e : mostCommon c (some n) = (mostCommon c none).take n := by simp [mostCommon]
  refine ⟨by rw [e, List.length_take, hp.length_eq], (mostCommon c none).drop n, ?_, ?_, ?_⟩
  · rw [e, List.take_append_drop]; exact hp
  · rw [e]; exact hs.sublist (List.take_sublist _ _)
  · rw [e]
    rw [← List.take_append_drop n (mostCommon c none), List.pairwise_append] at hs
    exact fun a ha b hb => hs.2.2 a ha b hb

/-- Non-vacuity: counters with positive, zero and negative counts are reachable and combine as stated. -/
example : let c : Cnt Char := ofIter ['a', 'b', 'b', 'b', 'c']
    let d : Cnt Char := (ofIter ['b', 'c', 'c', 'd']).set 'z' (-2)
    Reach c ∧ Reach d ∧ sub c d = [('a', 1), ('b', 2), ('z', 2)] ∧ and c d = [('b', 1), ('c', 1)] ∧
    add c d = [('a', 1), ('b', 4), ('c', 3), ('d', 1)] ∧
    or c d = [('a', 1), ('b', 3), ('c', 2), ('d', 1)] ∧
    elements d = ['b', 'c', 'c', 'd'] := by
  refine ⟨.updateIter _ .empty, .set _ _ (.updateIter _ .empty), ?_⟩
  decide +kernel

end Verif.Props.Counter
