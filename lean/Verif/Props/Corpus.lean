import Verif.Lemmas.Corpus
import Verif.Lemmas.GraphPair
import Verif.Props.GraphPair
import Verif.Props.Etree
import Verif.Spec.CorpusEq
import Verif.Spec.Slices

/-! Properties C35, C36, C37 and C59 (lib/daeso/pgc/corpus.py, class ParallelGraphCorpus). -/
namespace Verif.Props.Corpus
open Verif Verif.Spec Verif.Corpus

/-! ### C35: sequence operations -/

/-- C35.  `set_relations` leaves a sorted list with the given relations, and no other list object changes. -/
theorem set_relations_sorted (w : World) (a : Option Nat) (ha : ∀ x, a = some x → x < w.nrels) :
    ((setRelations w a).1.rels (setRelations w a).2).Pairwise (· ≤ ·) ∧
    ((setRelations w a).1.rels (setRelations w a).2).Perm ((a.map w.rels).getD []) ∧
    (∀ x < w.nrels, a ≠ some x → (setRelations w a).1.rels x = w.rels x) := by
  have hs : ∀ l : List String, (l.mergeSort (fun s t => decide (s ≤ t))).Pairwise (· ≤ ·) := by
    intro l
    have := List.pairwise_mergeSort (le := fun s t : String => decide (s ≤ t))
      (by intro a b c; simp only [decide_eq_true_eq]; exact le_trans)
      (by intro a b; simp only [Bool.or_eq_true, decide_eq_true_eq]; exact le_total a b) l
    simpa using this
  cases a with
  | none =>
    refine ⟨?_, ?_, ?_⟩
    · simp [setRelations]
    · simp [setRelations]
    · intro x hx _
      simp only [setRelations]
      rw [if_neg (by omega)]
  | some a =>
    have haw := ha a rfl
    unfold setRelations
    by_cases hr : w.rels a ≠ []
    · simp only [hr, if_true, ne_eq, not_false_eq_true]
      refine ⟨hs _, List.mergeSort_perm _ _, ?_⟩
      intro x _ hx
      have : x ≠ a := fun h => hx (by rw [h])
      simp [this]
    · simp only [hr, if_false, if_true]
      push Not at hr
      refine ⟨by simp, by simp [hr], ?_⟩
      intro x hx _
      rw [if_neg (by omega)]

/-- C35.  `set_relations` sorts the caller's list object in place, so every corpus that holds it sees the change. -/
theorem set_relations_aliases (w : World) (a : Nat) (h : w.rels a ≠ []) :
    (setRelations w (some a)).2 = a ∧
    (setRelations w (some a)).1.rels a = (w.rels a).mergeSort (fun s t => decide (s ≤ t)) := by
  unfold setRelations
  simp [h]

/-- C35.  Concatenation, `+=` and slice assignment raise TypeError for other objects and ValueError for other
relations, before anything changes. -/
theorem concat_checked (w : World) (c : Corpus) :
    (add w c none = (w, .error .typeError) ∧ iadd w c none = (c, some .typeError) ∧
      ∀ i j, setSlice w c i j none = (c, some .typeError)) ∧
    (∀ d, w.rels c.rel ≠ w.rels d.rel → add w c (some d) = (w, .error .valueError) ∧
      iadd w c (some d) = (c, some .valueError) ∧ ∀ i j, setSlice w c i j (some d) = (c, some .valueError)) ∧
    (∀ d, w.rels c.rel = w.rels d.rel →
      (∃ w' e, add w c (some d) = (w', .ok e) ∧ e.pairs = c.pairs ++ d.pairs) ∧
      iadd w c (some d) = ({ c with pairs := c.pairs ++ d.pairs }, none)) := by
  refine ⟨⟨rfl, rfl, fun _ _ => rfl⟩, ?_, ?_⟩
  · intro d h
    simp [add, iadd, setSlice, checkCompat, h]
  · intro d h
    refine ⟨⟨(mkCorpus w (c.pairs ++ d.pairs) (some c.rel) c.meta).1,
      (mkCorpus w (c.pairs ++ d.pairs) (some c.rel) c.meta).2, ?_, rfl⟩, ?_⟩
    · simp [add, checkCompat, h]
    · simp [iadd, checkCompat, h]

private theorem setRelations_rels (w : World) (a : Nat) (ha : a < w.nrels) :
    let w' := (setRelations w (some a)).1
    let b := (setRelations w (some a)).2
    w'.rels b = w'.rels a ∧ b < w'.nrels ∧ w.nrels ≤ w'.nrels ∧ w'.gp = w.gp ∧ w'.path = w.path ∧
    (w.rels a = [] → w'.rels b = [] ∧ w'.rels a = [] ∧ b = w.nrels ∧ ∀ x < w.nrels, w'.rels x = w.rels x) ∧
    (w.rels a ≠ [] → b = a ∧ w'.rels a ≠ []) := by
  intro w' b
  by_cases h : w.rels a = []
  · have e : setRelations w (some a) =
        ({ w with rels := fun x => if x = w.nrels then [] else w.rels x, nrels := w.nrels + 1 }, w.nrels) := by
      simp [setRelations, h]
    have ha' : a ≠ w.nrels := by omega
    simp only [w', b, e, if_true, if_neg ha', h, true_and, ne_eq, not_true_eq_false, false_implies, and_true]
    refine ⟨by omega, by omega, ?_⟩
    intro _ x hx
    rw [if_neg (by omega)]
  · have e : setRelations w (some a) =
        ({ w with rels := fun x => if x = a then (w.rels a).mergeSort (fun s t => decide (s ≤ t)) else w.rels x }, a) := by
      simp [setRelations, h]
    simp only [w', b, e, if_true, h, false_implies, true_and, ne_eq, not_false_eq_true, forall_const]
    refine ⟨ha, le_refl _, ?_⟩
    intro hc
    apply h
    have := (List.mergeSort_perm (w.rels a) (fun s t => decide (s ≤ t))).length_eq
    rw [hc] at this
    exact List.length_eq_zero_iff.1 this.symm

private theorem listEq_self (eq : Nat → Nat → Py Bool) (l : List Nat) : listEq eq l l = .ok true := by
  have : ∀ l, listEq.go eq l l = .ok true := by
    intro l
    induction l with
    | nil => rfl
    | cons x l ih => simp [listEq.go, andThen, ih]
  simp [listEq, this]

private theorem slice_append (l : List Nat) (k : Int) :
    sliceList l 0 (bound l.length k) ++ sliceList l (bound l.length k) l.length = l := by
  unfold sliceList
  simp

/-- C35.  `(c[:k] + c[k:]) == c` for every integer `k`. -/
theorem slice_concat (stat : String → Option Nat) (ws : Char → Bool) (w : World) (c : Corpus) (hc : c.rel < w.nrels)
    (k : Int) :
    let s1 := getSlice w c none (some k)
    let s2 := getSlice s1.1 c (some k) none
    ∃ w' e, add s2.1 s1.2 (some s2.2) = (w', .ok e) ∧ corpusEq stat ws w' e c = .ok true := by
  intro s1 s2
  have A := setRelations_rels w c.rel hc
  have hm : corpusMetaEq ws c.meta c.meta = .ok true := by
    cases c.meta <;> simp [corpusMetaEq, metaEq]
  have hpairs : s1.2.pairs ++ s2.2.pairs = c.pairs := by
    simp only [s1, s2, getSlice, mkCorpus]
    exact slice_append c.pairs k
  have hmeta : s1.2.meta = c.meta := rfl
  have hs1w : s1.1 = (setRelations w (some c.rel)).1 := rfl
  have hs1r : s1.2.rel = (setRelations w (some c.rel)).2 := rfl
  have hs2w : s2.1 = (setRelations s1.1 (some c.rel)).1 := rfl
  have hs2r : s2.2.rel = (setRelations s1.1 (some c.rel)).2 := rfl
  rw [← hs1w, ← hs1r] at A
  have hc1 : c.rel < s1.1.nrels := by have := A.2.2.1; omega
  have Bq := setRelations_rels s1.1 c.rel hc1
  rw [← hs2w, ← hs2r] at Bq
  dsimp only at A Bq
  obtain ⟨a1, a2, a3, _, _, a4, a5⟩ := A
  obtain ⟨b1, b2, b3, _, _, b4, b5⟩ := Bq
  have hrel : s2.1.rels s1.2.rel = s2.1.rels c.rel ∧ s2.1.rels s2.2.rel = s2.1.rels c.rel ∧ s1.2.rel < s2.1.nrels := by
    by_cases h : w.rels c.rel = []
    · obtain ⟨i1, i2, i3, i4⟩ := a4 h
      obtain ⟨j1, j2, j3, j4⟩ := b4 i2
      refine ⟨?_, b1, by omega⟩
      rw [j4 _ a2, j2, i1]
    · obtain ⟨i1, i2⟩ := a5 h
      exact ⟨by rw [i1], b1, by omega⟩
  have hadd := (concat_checked s2.1 s1.2).2.2 s2.2 (by rw [hrel.1, hrel.2.1])
  have hE : add s2.1 s1.2 (some s2.2) =
      ((mkCorpus s2.1 (s1.2.pairs ++ s2.2.pairs) (some s1.2.rel) s1.2.meta).1,
       .ok (mkCorpus s2.1 (s1.2.pairs ++ s2.2.pairs) (some s1.2.rel) s1.2.meta).2) := by
    simp [add, checkCompat, hrel.1, hrel.2.1]
  refine ⟨_, _, hE, ?_⟩
  have C := setRelations_rels s2.1 s1.2.rel hrel.2.2
  dsimp only at C
  obtain ⟨c1, c2, c3, _, _, c4, c5⟩ := C
  have hfin : (setRelations s2.1 (some s1.2.rel)).1.rels (setRelations s2.1 (some s1.2.rel)).2 =
      (setRelations s2.1 (some s1.2.rel)).1.rels c.rel := by
    by_cases h : s2.1.rels s1.2.rel = []
    · obtain ⟨i1, i2, i3, i4⟩ := c4 h
      rw [i1, i4 _ (by omega), ← hrel.1, h]
    · have hwne : w.rels c.rel ≠ [] := by
        intro hw
        obtain ⟨i1, i2, i3, i4⟩ := a4 hw
        obtain ⟨j1, j2, j3, j4⟩ := b4 i2
        apply h
        rw [j4 _ a2, i1]
      obtain ⟨i1, _⟩ := a5 hwne
      rw [c1, i1]
  simp only [mkCorpus, corpusEq, andThen, hfin, decide_true, hmeta, hm, hpairs, listEq_self]

/-- C35.  Assigning a slice to itself changes nothing, whatever the bounds. -/
theorem setslice_self (w : World) (c : Corpus) (hc : c.rel < w.nrels) (i j : Int) :
    let s := getSlice w c (some i) (some j)
    setSlice s.1 c i j (some s.2) = (c, none) := by
  intro s
  have A := setRelations_rels w c.rel hc
  dsimp only at A
  have hsw : s.1 = (setRelations w (some c.rel)).1 := rfl
  have hsr : s.2.rel = (setRelations w (some c.rel)).2 := rfl
  rw [← hsw, ← hsr] at A
  simp only [setSlice, checkCompat, A.1, ne_eq, not_true_eq_false, if_false]
  have hp : s.2.pairs = sliceList c.pairs (bound c.pairs.length i) (bound c.pairs.length j) := rfl
  rw [hp]
  have : ∀ (l : List Nat) (a b : Nat), l.take a ++ sliceList l a b ++ l.drop (max a b) = l := by
    intro l a b
    unfold sliceList
    rcases Nat.le_total a b with h | h
    · rw [max_eq_right h, List.drop_take, ← List.take_add, Nat.add_sub_cancel' h, List.take_append_drop]
    · rw [max_eq_left h]
      have : (l.take b).drop a = [] := by
        rw [List.drop_eq_nil_iff, List.length_take]; omega
      rw [this]; simp
  rw [this]

/-- C35.  `del c[i:j]` is slice assignment of an empty corpus; it deletes exactly the slice. -/
theorem delslice_complement (c : Corpus) (i j : Int) :
    (delSlice c i j).pairs.Sublist c.pairs ∧
    c.pairs.length = (delSlice c i j).pairs.length +
      (sliceList c.pairs (bound c.pairs.length i) (bound c.pairs.length j)).length ∧
    (∀ k, k < bound c.pairs.length i → (delSlice c i j).pairs[k]? = c.pairs[k]?) ∧
    (∀ k, bound c.pairs.length i ≤ bound c.pairs.length j → bound c.pairs.length i ≤ c.pairs.length →
      (delSlice c i j).pairs[bound c.pairs.length i + k]? = c.pairs[bound c.pairs.length j + k]?) := by
  unfold delSlice sliceList
  dsimp only
  generalize bound c.pairs.length i = a
  generalize bound c.pairs.length j = b
  refine ⟨?_, ?_, ?_, ?_⟩
  · conv_rhs => rw [← List.take_append_drop a c.pairs]
    refine List.Sublist.append (List.Sublist.refl _) ?_
    exact (List.drop_sublist_drop_left _ (le_max_left a b))
  · simp only [List.length_append, List.length_take, List.length_drop]; omega
  · intro k hk
    rw [List.getElem?_append]
    split
    · rw [List.getElem?_take, if_pos hk]
    · rename_i h
      rw [List.length_take] at h
      rw [List.getElem?_drop, List.getElem?_eq_none (by omega), List.getElem?_eq_none (by omega)]
  · intro k hab ha
    rw [max_eq_right hab, List.getElem?_append_right (by simp), List.getElem?_drop, List.length_take]
    congr 1
    omega

/-! ### Slices, repetition and append, exactly -/

private theorem items_off {α : Type} (p : Nat → Bool) (a b : Nat) (l : List α) (s : Nat)
    (hp : ∀ k < s + l.length, p k = (decide (a ≤ k) && decide (k < b))) :
    ((l.zipIdx s).filter fun x => p x.2).map Prod.fst = (l.take (b - s)).drop (a - s) := by
  induction l generalizing s with
  | nil => simp
  | cons x l ih =>
    rw [List.zipIdx_cons, List.filter_cons]
    have h0 := hp s (by simp)
    have ih' := ih (s + 1) (fun k hk => hp k (by simp only [List.length_cons]; omega))
    dsimp only
    rw [h0]
    by_cases h1 : a ≤ s
    · by_cases h2 : s < b
      · simp only [h1, h2, decide_true, Bool.and_self, if_true, List.map_cons, ih']
        have e1 : b - s = (b - (s + 1)) + 1 := by omega
        rw [e1, List.take_succ_cons, show a - s = 0 by omega, show a - (s + 1) = 0 by omega]
        simp
      · simp only [h1, h2, decide_true, decide_false, Bool.and_false, Bool.false_eq_true, if_false, ih']
        rw [show b - s = 0 by omega, show b - (s + 1) = 0 by omega]
        simp
    · simp only [h1, decide_false, Bool.false_and, Bool.false_eq_true, if_false, ih']
      by_cases h2 : s < b
      · have e1 : b - s = (b - (s + 1)) + 1 := by omega
        have e2 : a - s = (a - (s + 1)) + 1 := by omega
        rw [e1, e2, List.take_succ_cons, List.drop_succ_cons]
      · rw [show b - s = 0 by omega, show b - (s + 1) = 0 by omega]
        simp

private theorem items {α : Type} (p : Nat → Bool) (a b : Nat) (l : List α)
    (hp : ∀ k < l.length, p k = (decide (a ≤ k) && decide (k < b))) : Slices.itemsAt l p = (l.take b).drop a := by
  have := items_off p a b l 0 (by simpa using hp)
  unfold Slices.itemsAt
  simpa using this

private theorem lt_bound (n : Nat) (i : Int) (k : Nat) : k < bound n i ↔ (k : Int) < Slices.pos n i := by
  unfold bound Slices.pos
  omega

private theorem setRelations_perm (w : World) (a : Nat) :
    ∀ x < w.nrels, ((setRelations w (some a)).1.rels x).Perm (w.rels x) := by
  intro x hx
  unfold setRelations
  by_cases hr : w.rels a ≠ []
  · simp only [hr, if_true, ne_eq, not_false_eq_true]
    split
    · rename_i h; rw [h]; exact List.mergeSort_perm _ _
    · exact List.Perm.refl _
  · simp only [hr, if_false]
    rw [if_neg (by omega)]

private theorem items_before (l : List Nat) (i : Int) :
    Slices.itemsAt l (Slices.before l.length (some i)) = l.take (bound l.length i) := by
  rw [items _ 0 (bound l.length i) l (by intro k _; simp [Slices.before, ← lt_bound])]
  simp

private theorem items_past (l : List Nat) (i j : Int) :
    Slices.itemsAt l (Slices.past l.length (some i) (some j)) = l.drop (max (bound l.length i) (bound l.length j)) := by
  rw [items _ (max (bound l.length i) (bound l.length j)) l.length l (by
    intro k hk
    simp only [Slices.past, Slices.before, Slices.notPast, ← lt_bound, hk, decide_true, Bool.and_true]
    rw [← decide_not, ← decide_not, ← Bool.decide_and]
    congr 1
    rw [eq_iff_iff]
    omega)]
  simp

/-- C35.  A slice holds exactly the pairs at the positions in the slice, in order; it has the relations and the metadata of
the corpus, and no list of relations of the program gets other items. -/
theorem slice_exact (w : World) (c : Corpus) (hc : c.rel < w.nrels) (i j : Option Int) :
    (getSlice w c i j).2.pairs = Slices.itemsAt c.pairs (Slices.inSlice c.pairs.length i j) ∧
    ((getSlice w c i j).1.rels (getSlice w c i j).2.rel).Perm (w.rels c.rel) ∧
    (getSlice w c i j).2.meta = c.meta ∧
    ∀ x < w.nrels, ((getSlice w c i j).1.rels x).Perm (w.rels x) := by
  refine ⟨?_, ?_, rfl, ?_⟩
  · rw [items (Slices.inSlice c.pairs.length i j) (match i with | some i => bound c.pairs.length i | none => 0)
      (match j with | some j => bound c.pairs.length j | none => c.pairs.length)]
    · rfl
    · intro k hk
      unfold Slices.inSlice Slices.before Slices.notPast
      have hn : ∀ a : Nat, (!decide (k < a)) = decide (a ≤ k) := by intro a; rw [← decide_not]; simp
      cases i <;> cases j <;> simp only [← lt_bound, hn, hk, Nat.zero_le, decide_true, Bool.not_false, Bool.and_true, Bool.true_and]
  · exact (set_relations_sorted w (some c.rel) (by simpa using hc)).2.1
  · exact setRelations_perm w c.rel

/-- C35.  `del c[i:j]` leaves exactly the pairs before and after the slice. -/
theorem delslice_exact (c : Corpus) (i j : Int) :
    delSlice c i j = { c with
      pairs := Slices.itemsAt c.pairs (Slices.before c.pairs.length (some i)) ++
        Slices.itemsAt c.pairs (Slices.past c.pairs.length (some i) (some j)) } := by
  rw [items_before, items_past]
  rfl

/-- C35.  `c[i:j] = d`, for a corpus with the same relations, puts the pairs of `d` in the place of the slice. -/
theorem setslice_exact (w : World) (c d : Corpus) (h : w.rels c.rel = w.rels d.rel) (i j : Int) :
    setSlice w c i j (some d) = ({ c with
      pairs := Slices.itemsAt c.pairs (Slices.before c.pairs.length (some i)) ++ d.pairs ++
        Slices.itemsAt c.pairs (Slices.past c.pairs.length (some i) (some j)) }, none) := by
  rw [items_before, items_past]
  simp [setSlice, checkCompat, h]

/-- C35.  `c * n` is `n` times the pairs of `c` in turn (none if `n` is negative), with the relations and metadata of `c`. -/
theorem mul_exact (w : World) (c : Corpus) (hc : c.rel < w.nrels) (n : Int) :
    (mul w c n).2.pairs.length = n.toNat * c.pairs.length ∧
    (∀ k < n.toNat * c.pairs.length, (mul w c n).2.pairs[k]? = c.pairs[k % c.pairs.length]?) ∧
    ((mul w c n).1.rels (mul w c n).2.rel).Perm (w.rels c.rel) ∧
    (mul w c n).2.meta = c.meta ∧
    ∀ x < w.nrels, ((mul w c n).1.rels x).Perm (w.rels x) := by
  have hp : (mul w c n).2.pairs = (List.replicate n.toNat c.pairs).flatten := rfl
  rw [hp]
  refine ⟨by simp, ?_, (set_relations_sorted w (some c.rel) (by simpa using hc)).2.1, rfl, setRelations_perm w c.rel⟩
  induction n.toNat with
  | zero => simp
  | succ m ih =>
    intro k hk
    rw [List.replicate_succ, List.flatten_cons]
    by_cases h : k < c.pairs.length
    · rw [List.getElem?_append_left h, Nat.mod_eq_of_lt h]
    · rw [List.getElem?_append_right (by omega), ih (k - c.pairs.length) (by rw [Nat.succ_mul] at hk; omega),
        Nat.mod_eq_sub_mod (a := k) (by omega)]

/-- C35.  `append` adds the pair at the end; other objects are refused. -/
theorem append_exact (c : Corpus) (p : Nat) :
    append c (some p) = ({ c with pairs := c.pairs ++ [p] }, none) ∧ append c none = (c, some .typeError) := ⟨rfl, rfl⟩

example : Slices.itemsAt [10, 11, 12, 13] (Slices.inSlice 4 (some (-3)) (some 3)) = [11, 12] := by decide
example : Slices.itemsAt [10, 11, 12, 13] (Slices.inSlice 4 (some 0) none) = [10, 11, 12, 13] := by decide
example : Slices.itemsAt [10, 11, 12, 13] (Slices.inSlice 4 (some 3) (some 1)) = [] := by decide

/-! ### C36: list methods -/

/-- C36, the part that holds: with an index, `pop` removes the right item and raises IndexError out of range. -/
theorem pop_removes (c : Corpus) (i : Int) :
    (-(c.pairs.length : Int) ≤ i → i < c.pairs.length →
      (pop c (some i)).1.pairs = c.pairs.eraseIdx (if i < 0 then i + c.pairs.length else i).toNat) ∧
    (i < -(c.pairs.length : Int) ∨ (c.pairs.length : Int) ≤ i → pop c (some i) = (c, .error .indexError)) := by
  unfold pop
  dsimp only
  constructor
  · intro h1 h2
    rw [if_neg]
    split <;> omega
  · intro h
    rw [if_pos]
    split <;> omega

/-- C36 is false of the code: `pop` never returns the removed pair, and cannot do without an index. -/
theorem pop_wrong (c : Corpus) : (∀ i p, (pop c i).2 ≠ .ok (some p)) ∧ pop c none = (c, .error .typeError) := by
  refine ⟨?_, rfl⟩
  intro i p
  cases i with
  | none => simp [pop]
  | some i =>
    unfold pop
    dsimp only
    split <;> split <;> simp

/-- C36 is false of the code: `insert` never inserts, `!=` and `n * corpus` never return. -/
theorem insert_ne_rmul_wrong (w : World) (c d : Corpus) (p : Nat) (n : Int) :
    insert c (some p) = (c, some .nameError) ∧ ne w c d = .error .typeError ∧ rmul w c n = .error .typeError :=
  ⟨rfl, rfl, rfl⟩

/-! ### C37: purge -/

private def E (stat : String → Option Nat) (w : World) (a b : Nat) : Prop := SameFile stat (w.path a) (w.path b)

/-- A bank used by the corpus. -/
def Uses (w : World) (ps : List Nat) (b : Nat) : Prop := ∃ p ∈ ps, b = (w.gp p).source ∨ b = (w.gp p).target

/-- Any two banks in use can be compared: they have the same path, or both files exist. -/
def Comparable (stat : String → Option Nat) (w : World) (ps : List Nat) : Prop :=
  ∀ a b, Uses w ps a → Uses w ps b → w.path a = w.path b ∨ (stat (w.path a)).isSome ∧ (stat (w.path b)).isSome

open Classical in
private theorem purge_spec (stat : String → Option Nat) (w : World) (ps : List Nat) (hcmp : Comparable stat w ps) :
    ∃ t h, Py.forIn ps ([], w.gp) (purgeStep fun a b => bankEq stat (w.path a) (w.path b)) = .ok (t, h) ∧
      Purged (Uses w ps) (E stat w) ps w.gp h t := by
  have hE : ∀ a b, Uses w ps a → Uses w ps b → bankEq stat (w.path a) (w.path b) = .ok (decide (E stat w a b)) := by
    intro a b ha hb
    obtain ⟨c, e1, e2⟩ := bankEq_iff (hcmp a b ha hb)
    rw [e1]
    congr 1
    rw [Bool.eq_iff_iff, e2, decide_eq_true_eq]; rfl
  obtain ⟨t, h, e1, e2⟩ := purge_loop (h := w.gp) hE (fun a _ => Or.inl rfl) (fun a b _ _ h => sameFile_symm h)
    (fun a b c _ _ _ h h' => sameFile_trans h h') ps []
    (by intro p hp; exact ⟨⟨p, by simpa using hp, Or.inl rfl⟩, ⟨p, by simpa using hp, Or.inr rfl⟩⟩)
    (h1 := w.gp) (t := [])
    ⟨AD.WF.nil, ⟨by simp, by simp, by simp⟩, fun _ _ => rfl, fun _ => rfl, by simp, by simp, by simp⟩
  exact ⟨t, h, e1, by simpa using e2⟩

/-- C37.  After `purge` equal banks of the corpus are identical objects; every graph pair keeps its graphs, metadata
and alignments, and its banks are equal to the old ones and were in use before; pairs outside the corpus stay as they
are. -/
theorem purge_shares (stat : String → Option Nat) (w : World) (c : Corpus) (hcmp : Comparable stat w c.pairs) :
    ∃ w', purge stat w c none = .ok w' ∧ w'.path = w.path ∧ w'.rels = w.rels ∧
      (∀ a b, Uses w' c.pairs a → Uses w' c.pairs b → SameFile stat (w.path a) (w.path b) → a = b) ∧
      (∀ a, Uses w' c.pairs a → Uses w c.pairs a) ∧
      (∀ p ∈ c.pairs, SameFile stat (w.path (w.gp p).source) (w.path (w'.gp p).source) ∧
        SameFile stat (w.path (w.gp p).target) (w.path (w'.gp p).target)) ∧
      (∀ p, (w'.gp p).sourceId = (w.gp p).sourceId ∧ (w'.gp p).targetId = (w.gp p).targetId ∧
        (w'.gp p).meta = (w.gp p).meta ∧ (w'.gp p).align = (w.gp p).align) ∧
      (∀ p, p ∉ c.pairs → w'.gp p = w.gp p) := by
  obtain ⟨t, h, e1, P⟩ := purge_spec stat w c.pairs hcmp
  refine ⟨{ w with gp := h }, by simp only [purge, e1], rfl, rfl, ?_, ?_, P.equal, ?_, P.other⟩
  · have hrep : ∀ a, Uses { w with gp := h } c.pairs a → AD.get? t a = some a := by
      rintro a ⟨p, hp, rfl | rfl⟩
      · exact (P.good p hp).1
      · exact (P.good p hp).2
    intro a b ha hb hab
    exact P.table.uniq a a b b (hrep a ha) (hrep b hb) hab
  · rintro a ⟨p, hp, rfl | rfl⟩
    · obtain ⟨q, hq, h1⟩ := P.keys _ _ (P.good p hp).1; exact ⟨q, hq, h1⟩
    · obtain ⟨q, hq, h1⟩ := P.keys _ _ (P.good p hp).2; exact ⟨q, hq, h1⟩
  · intro p
    dsimp only
    rw [P.same p]
    exact ⟨rfl, rfl, rfl, rfl⟩

open Classical in
/-- C37.  `purge` is idempotent. -/
theorem purge_idempotent (stat : String → Option Nat) (w : World) (c : Corpus) (hcmp : Comparable stat w c.pairs)
    (w' : World) (h : purge stat w c none = .ok w') : purge stat w' c none = .ok w' := by
  obtain ⟨w'', e1, hp, _, hshare, huse, _⟩ := purge_shares stat w c hcmp
  rw [h] at e1
  simp only [Except.ok.injEq] at e1
  subst e1
  have hE : ∀ a b, Uses w c.pairs a → Uses w c.pairs b →
      bankEq stat (w'.path a) (w'.path b) = .ok (decide (E stat w a b)) := by
    intro a b ha hb
    obtain ⟨c, e1, e2⟩ := bankEq_iff (hcmp a b ha hb)
    rw [hp, e1]
    congr 1
    rw [Bool.eq_iff_iff, e2, decide_eq_true_eq]; rfl
  obtain ⟨t', e2⟩ := purge_fixed (h := w'.gp) hE c.pairs (Uses w' c.pairs) hshare (fun a ha => huse a ha)
    (by intro p hp; exact ⟨⟨p, hp, Or.inl rfl⟩, ⟨p, hp, Or.inr rfl⟩⟩) [] AD.WF.nil (by simp)
  simp only [purge, e2]

/-- C37, limits: with two banks whose files are missing and whose paths differ, `purge` raises OSError. -/
theorem purge_missing_raises (stat : String → Option Nat) (w : World) (p : Nat) (r : Nat)
    (m : Option Meta) (h1 : w.path (w.gp p).source ≠ w.path (w.gp p).target)
    (h2 : stat (w.path (w.gp p).target) = none) : purge stat w ⟨[p], r, m⟩ none = .error .osError := by
  have hne : (w.gp p).source ≠ (w.gp p).target := fun h => h1 (by rw [h])
  have h1' : ¬ w.path (w.gp p).target = w.path (w.gp p).source := fun h => h1 h.symm
  simp [purge, Py.forIn, purgeStep, newBank, AD.get?, AD.set, findBank, hne, bankEq, h1', h2]

/-- C37, limits: asked for one graph pair, `purge` treats the whole corpus if that pair has no alignments. -/
theorem purge_unaligned_pair (stat : String → Option Nat) (w : World) (c : Corpus) (p : Nat)
    (h : GraphPair.len (w.gp p).align = 0) : purge stat w c (some p) = purge stat w c none := by
  simp [purge, h]

/-! ### C59: equality of corpora -/

/-- Graph pairs that can be compared: alignments made through the API, ASCII metadata. -/
def Regular (w : World) (ps : List Nat) : Prop :=
  ∀ p ∈ ps, (∃ ops errs, GraphPair.run true Graph.empty ops = .ok ((w.gp p).align, errs)) ∧
    Xml.Ascii (w.gp p).meta.elem

/-- The same metadata object has the same content. -/
def OneContent (m n : Meta) : Prop := m.oid = n.oid → m = n

private theorem metaEq_iff (ws : Char → Bool) {m n : Meta} (hm : Xml.Ascii m.elem) (hn : Xml.Ascii n.elem)
    (h1 : OneContent m n) : ∃ b, metaEq ws m n = .ok b ∧ (b = true ↔ SameMeta ws m n) := by
  unfold metaEq
  by_cases h : m.oid = n.oid
  · rw [if_pos h]
    have := h1 h
    subst this
    obtain ⟨b, e1, e2⟩ := Etree.equals_iff ws hm hm
    rw [Etree.equals_refl ws hm] at e1
    simp only [Except.ok.injEq] at e1
    subst e1
    exact ⟨true, rfl, e2⟩
  · rw [if_neg h]; exact Etree.equals_iff ws hm hn

private theorem andThen_iff {a b : Py Bool} {p q : Prop} (ha : ∃ x, a = .ok x ∧ (x = true ↔ p))
    (hb : ∃ x, b = .ok x ∧ (x = true ↔ q)) : ∃ x, andThen a b = .ok x ∧ (x = true ↔ p ∧ q) := by
  obtain ⟨x, rfl, hx⟩ := ha
  obtain ⟨y, rfl, hy⟩ := hb
  cases x with
  | false => exact ⟨false, rfl, by rw [← hx]; simp⟩
  | true => exact ⟨y, rfl, by rw [hy, ← hx]; simp⟩

private theorem gpEq_iff (stat : String → Option Nat) (ws : Char → Bool) (w : World) (ps : List Nat)
    (hcmp : Comparable stat w ps) (hreg : Regular w ps)
    (hone : ∀ a ∈ ps, ∀ b ∈ ps, OneContent (w.gp a).meta (w.gp b).meta) (a b : Nat) (ha : a ∈ ps) (hb : b ∈ ps) :
    ∃ x, gpEq stat ws w a b = .ok x ∧ (x = true ↔ SamePair stat ws w a b) := by
  obtain ⟨⟨ops, er, hops⟩, hma⟩ := hreg a ha
  obtain ⟨⟨ops', er', hops'⟩, hmb⟩ := hreg b hb
  by_cases hab : a = b
  · subst hab
    refine ⟨true, by simp [gpEq], ?_⟩
    simp only [true_iff]
    obtain ⟨y, e1, e2⟩ := Etree.equals_iff ws hma hma
    rw [Etree.equals_refl ws hma] at e1
    simp only [Except.ok.injEq] at e1
    subst e1
    exact ⟨Or.inl rfl, Or.inl rfl, rfl, rfl, e2.1 rfl, fun _ _ => rfl⟩
  · unfold gpEq SamePair
    rw [if_neg hab]
    have hdec : ∀ (p : Prop) [Decidable p], ∃ x, (Except.ok (decide p) : Py Bool) = .ok x ∧ (x = true ↔ p) :=
      fun p _ => ⟨decide p, rfl, by simp⟩
    exact andThen_iff (bankEq_iff (hcmp _ _ ⟨a, ha, Or.inl rfl⟩ ⟨b, hb, Or.inl rfl⟩)) <|
      andThen_iff (bankEq_iff (hcmp _ _ ⟨a, ha, Or.inr rfl⟩ ⟨b, hb, Or.inr rfl⟩)) <|
      andThen_iff (hdec _) <| andThen_iff (hdec _) <|
      andThen_iff (metaEq_iff ws hma hmb (hone a ha b hb))
        (GraphPair.alignments_equal_iff true true ops ops' hops hops')

private theorem listEq_iff {eq : Nat → Nat → Py Bool} {R : Nat → Nat → Prop} (hrefl : ∀ a, R a a) (l m : List Nat)
    (h : ∀ a ∈ l, ∀ b ∈ m, ∃ x, eq a b = .ok x ∧ (x = true ↔ R a b)) :
    ∃ x, listEq eq l m = .ok x ∧ (x = true ↔ List.Forall₂ R l m) := by
  unfold listEq
  by_cases hl : l.length ≠ m.length
  · rw [if_pos hl]
    refine ⟨false, rfl, ?_⟩
    simp only [Bool.false_eq_true, false_iff]
    intro hf; exact hl hf.length_eq
  · rw [if_neg hl]
    push Not at hl
    induction l generalizing m with
    | nil =>
      cases m with
      | nil => exact ⟨true, rfl, by simp⟩
      | cons y m => simp at hl
    | cons x l ih =>
      cases m with
      | nil => simp at hl
      | cons y m =>
        have i := ih m (fun a ha b hb => h a (by simp [ha]) b (by simp [hb])) (by simpa using hl)
        rw [List.forall₂_cons]
        refine andThen_iff ?_ i
        by_cases hxy : x = y
        · subst hxy; exact ⟨true, by simp, by simp [hrefl]⟩
        · rw [if_neg hxy]; exact h x (by simp) y (by simp)

/-- C59.  Comparable corpora with ASCII metadata compare equal exactly when they are the same in relations,
metadata and graph pairs, the latter compared by the files of their banks, graph ids, metadata and alignments. -/
theorem corpus_eq_iff (stat : String → Option Nat) (ws : Char → Bool) (w : World) (c d : Corpus)
    (hcmp : Comparable stat w (c.pairs ++ d.pairs)) (hreg : Regular w (c.pairs ++ d.pairs))
    (hone : ∀ a ∈ c.pairs ++ d.pairs, ∀ b ∈ c.pairs ++ d.pairs, OneContent (w.gp a).meta (w.gp b).meta)
    (hmeta : c.meta.isSome = d.meta.isSome)
    (hm : ∀ m n, c.meta = some m → d.meta = some n → Xml.Ascii m.elem ∧ Xml.Ascii n.elem ∧ OneContent m n) :
    ∃ b, corpusEq stat ws w c d = .ok b ∧ (b = true ↔ SameCorpus stat ws w c d) := by
  unfold corpusEq SameCorpus
  refine andThen_iff ⟨_, rfl, by simp⟩ (andThen_iff ?_ ?_)
  · cases hc : c.meta with
    | none =>
      cases hd : d.meta with
      | none => exact ⟨true, rfl, by simp⟩
      | some n => rw [hc, hd] at hmeta; simp at hmeta
    | some m =>
      cases hd : d.meta with
      | none => rw [hc, hd] at hmeta; simp at hmeta
      | some n =>
        obtain ⟨h1, h2, h3⟩ := hm m n hc hd
        exact metaEq_iff ws h1 h2 h3
  · have := listEq_iff (eq := gpEq stat ws w) (R := fun a b => a = b ∨ SamePair stat ws w a b) (fun a => Or.inl rfl)
      c.pairs d.pairs (by
        intro a ha b hb
        obtain ⟨x, e1, e2⟩ := gpEq_iff stat ws w _ hcmp hreg hone a b (by simp [ha]) (by simp [hb])
        refine ⟨x, e1, ?_⟩
        rw [e2]
        constructor
        · exact Or.inr
        · rintro (rfl | h)
          · obtain ⟨y, f1, f2⟩ := gpEq_iff stat ws w _ hcmp hreg hone a a (by simp [ha]) (by simp [ha])
            have : y = true := by simpa [gpEq] using f1.symm
            exact f2.1 this
          · exact h)
    obtain ⟨x, e1, e2⟩ := this
    refine ⟨x, e1, ?_⟩
    rw [e2]
    constructor
    · intro h
      have : List.Forall₂ (fun a b => (a ∈ c.pairs ++ d.pairs ∧ b ∈ c.pairs ++ d.pairs) ∧ (a = b ∨ SamePair stat ws w a b))
          c.pairs d.pairs := by
        have hsub : ∀ (l m : List Nat), (∀ a ∈ l, a ∈ c.pairs ++ d.pairs) → (∀ b ∈ m, b ∈ c.pairs ++ d.pairs) →
            List.Forall₂ (fun a b => a = b ∨ SamePair stat ws w a b) l m →
            List.Forall₂ (fun a b => (a ∈ c.pairs ++ d.pairs ∧ b ∈ c.pairs ++ d.pairs) ∧ (a = b ∨ SamePair stat ws w a b)) l m := by
          intro l m hl hm hf
          induction hf with
          | nil => exact .nil
          | cons hab _ ih =>
            exact .cons ⟨⟨hl _ (by simp), hm _ (by simp)⟩, hab⟩
              (ih (fun a ha => hl a (by simp [ha])) (fun b hb => hm b (by simp [hb])))
        exact hsub _ _ (fun a ha => by simp [ha]) (fun b hb => by simp [hb]) h
      refine this.imp ?_
      rintro a b ⟨⟨ha, hb⟩, rfl | h⟩
      · obtain ⟨y, f1, f2⟩ := gpEq_iff stat ws w _ hcmp hreg hone a a ha ha
        have : y = true := by simpa [gpEq] using f1.symm
        exact f2.1 this
      · exact h
    · intro h; exact h.imp fun a b hab => Or.inr hab

/-- C59, limits.  Comparing a corpus without metadata to one with metadata raises AttributeError. -/
theorem corpus_eq_meta_raises (stat : String → Option Nat) (ws : Char → Bool) (w : World) (c d : Corpus) (m : Meta)
    (h1 : c.meta = none) (h2 : d.meta = some m) (h3 : w.rels c.rel = w.rels d.rel) :
    corpusEq stat ws w c d = .error .attributeError := by
  simp [corpusEq, andThen, h3, h1, h2, corpusMetaEq]

/-! ### Concrete cases -/

/-- Two graph pairs with three bank objects, two of them for the same file. -/
def sample : World :=
  { gp := fun p => ⟨if p = 0 then 10 else 12, 11, "s", "t", ⟨p, .mk "graph_meta_data" [] none none []⟩, Graph.empty⟩
    path := fun b => if b = 11 then "/b" else "/a"
    rels := fun _ => ["restates", "equals"]
    nrels := 1 }

example : ((setRelations sample (some 0)).1.rels 0) = ["equals", "restates"] := by
  have h : ¬ "restates" ≤ "equals" := by decide +kernel
  simp [setRelations, sample, List.mergeSort, List.MergeSort.Internal.splitInTwo, List.merge, h]

example : Comparable (fun _ => none) sample [0] → False := by
  intro h
  have := h 10 11 ⟨0, by simp, Or.inl rfl⟩ ⟨0, by simp, Or.inr rfl⟩
  simp [sample] at this

example : Comparable (fun s => some s.length) sample [0, 1] := fun _ _ _ _ => Or.inr ⟨rfl, rfl⟩

example : (purge (fun s => some (if s = "/a" then 1 else 2)) sample ⟨[0, 1], 0, none⟩ none).map
    (fun w => ((w.gp 0).source, (w.gp 0).target, (w.gp 1).source, (w.gp 1).target)) = .ok (10, 11, 10, 11) := by
  decide +kernel

end Verif.Props.Corpus
