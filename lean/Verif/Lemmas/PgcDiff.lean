import Verif.Spec.Difference
import Verif.Lemmas.Base
import Mathlib.Data.List.Sort

/-! Lemmas about comparing alignments. -/
namespace Verif.PgcDiff
open Verif Verif.Spec
set_option linter.unusedSectionVars false

variable {M N : Alignment String String} {b : Both}

theorem first_loop (hN : ∀ s t, GraphPair.getAlign b.second s t = .ok (N s t)) : ∀ (l : List (Nodes × String)) (p : Parts),
    Py.forIn l p (first false b) = .ok
      { p with
        uniq1 := p.uniq1 ++ (l.filter fun x => falsy (N x.1.1 x.1.2)).map Prod.fst
        ident := p.ident ++ (l.filter fun x => !falsy (N x.1.1 x.1.2) && decide (N x.1.1 x.1.2 = some x.2)).map Prod.fst
        relDiff := p.relDiff ++ (l.filter fun x => !falsy (N x.1.1 x.1.2) && !decide (N x.1.1 x.1.2 = some x.2)).map Prod.fst }
  | [], p => by simp [Py.forIn]
  | x :: l, p => by
    unfold Py.forIn
    simp only [first, hN, Bool.false_eq_true, if_false, bind, Except.bind, pure, Except.pure]
    by_cases h1 : falsy (N x.1.1 x.1.2) = true
    · simp only [h1, if_true]
      rw [first_loop hN l]
      simp [List.filter_cons, h1]
    · simp only [Bool.not_eq_true] at h1
      simp only [h1, Bool.false_eq_true, if_false]
      by_cases h2 : N x.1.1 x.1.2 = some x.2
      · simp only [h2, if_true]
        rw [first_loop hN l]
        rw [h2] at h1
        simp [List.filter_cons, h1, h2]
      · simp only [h2, if_false]
        rw [first_loop hN l]
        simp [List.filter_cons, h1, h2]

theorem second_loop (hM : ∀ s t, GraphPair.getAlign b.first s t = .ok (M s t)) : ∀ (l : List (Nodes × String)) (p : Parts),
    Py.forIn l p (second false b) = .ok
      { p with uniq2 := p.uniq2 ++ (l.filter fun x => falsy (M x.1.1 x.1.2)).map Prod.fst }
  | [], p => by simp [Py.forIn]
  | x :: l, p => by
    unfold Py.forIn
    simp only [second, skip, hM, Bool.false_eq_true, if_false, bind, Except.bind, pure, Except.pure]
    by_cases h1 : falsy (M x.1.1 x.1.2) = true
    · simp only [h1, if_true]
      rw [second_loop hM l]
      simp [List.filter_cons, h1]
    · simp only [Bool.not_eq_true] at h1
      simp only [h1, Bool.false_eq_true, if_false]
      rw [second_loop hM l]
      simp [List.filter_cons, h1]

theorem falsy_iff (h : ∀ s t, N s t ≠ some "") (s t : String) : falsy (N s t) = true ↔ N s t = none := by
  cases hn : N s t with
  | none => simp [falsy]
  | some r =>
    have : r ≠ "" := fun e => h s t (e ▸ hn)
    simp [falsy, this]

/-- The four lists, as sets. -/
structure Good (wanted : String → Prop) (M N : Alignment String String) (p : Parts) : Prop where
  ident : ∀ s t, (s, t) ∈ p.ident ↔ ∃ r, wanted r ∧ M s t = some r ∧ N s t = some r
  relDiff : ∀ s t, (s, t) ∈ p.relDiff ↔ ∃ r r', wanted r ∧ M s t = some r ∧ N s t = some r' ∧ r ≠ r'
  uniq1 : ∀ s t, (s, t) ∈ p.uniq1 ↔ ∃ r, wanted r ∧ M s t = some r ∧ N s t = none
  uniq2 : ∀ s t, (s, t) ∈ p.uniq2 ↔ ∃ r, wanted r ∧ N s t = some r ∧ M s t = none
  nodup : p.ident.Nodup ∧ p.relDiff.Nodup ∧ p.uniq1.Nodup ∧ p.uniq2.Nodup

theorem parts_good {relations : List String} {l1 l2 : List (Nodes × String)} {wanted : String → Prop}
    (hM : ∀ s t, GraphPair.getAlign b.first s t = .ok (M s t)) (hN : ∀ s t, GraphPair.getAlign b.second s t = .ok (N s t))
    (nM : ∀ s t, M s t ≠ some "") (nN : ∀ s t, N s t ≠ some "")
    (e1 : GraphPair.alignments b.first (some relations) = .ok l1) (d1 : (l1.map Prod.fst).Nodup)
    (m1 : ∀ s t r, ((s, t), r) ∈ l1 ↔ M s t = some r ∧ wanted r)
    (e2 : GraphPair.alignments b.second (some relations) = .ok l2) (d2 : (l2.map Prod.fst).Nodup)
    (m2 : ∀ s t r, ((s, t), r) ∈ l2 ↔ N s t = some r ∧ wanted r) :
    ∃ p, parts false relations b = .ok p ∧ Good wanted M N p := by
  have hp := second_loop hM l2
    { uniq1 := [] ++ (l1.filter fun x => falsy (N x.1.1 x.1.2)).map Prod.fst
      ident := [] ++ (l1.filter fun x => !falsy (N x.1.1 x.1.2) && decide (N x.1.1 x.1.2 = some x.2)).map Prod.fst
      relDiff := [] ++ (l1.filter fun x => !falsy (N x.1.1 x.1.2) && !decide (N x.1.1 x.1.2 = some x.2)).map Prod.fst
      uniq2 := [] }
  refine ⟨Parts.mk ([] ++ (l1.filter fun x => !falsy (N x.1.1 x.1.2) && decide (N x.1.1 x.1.2 = some x.2)).map Prod.fst)
      ([] ++ (l1.filter fun x => !falsy (N x.1.1 x.1.2) && !decide (N x.1.1 x.1.2 = some x.2)).map Prod.fst)
      ([] ++ (l1.filter fun x => falsy (N x.1.1 x.1.2)).map Prod.fst)
      ([] ++ (l2.filter fun x => falsy (M x.1.1 x.1.2)).map Prod.fst), ?_, ?_⟩
  · simp only [parts, e1, e2, first_loop hN, bind, Except.bind]
    exact hp
  · refine ⟨fun s t => ?_, fun s t => ?_, fun s t => ?_, fun s t => ?_, ?_⟩
    · simp only [List.nil_append, List.mem_map, List.mem_filter, Prod.exists, Bool.and_eq_true, Bool.not_eq_true',
        decide_eq_true_eq, ← Bool.not_eq_true, falsy_iff nN]
      constructor
      · rintro ⟨a, b, r, ⟨h1, -, h2⟩, h3⟩
        obtain ⟨rfl, rfl⟩ := Prod.mk.inj h3
        obtain ⟨h4, h5⟩ := (m1 _ _ _).1 h1
        exact ⟨r, h5, h4, h2⟩
      · rintro ⟨r, h1, h2, h3⟩
        exact ⟨s, t, r, ⟨(m1 _ _ _).2 ⟨h2, h1⟩, by simp [h3], h3⟩, rfl⟩
    · simp only [List.nil_append, List.mem_map, List.mem_filter, Prod.exists, Bool.and_eq_true, Bool.not_eq_true',
        decide_eq_false_iff_not, ← Bool.not_eq_true, falsy_iff nN]
      constructor
      · rintro ⟨a, b, r, ⟨h1, h0, h2⟩, h3⟩
        obtain ⟨rfl, rfl⟩ := Prod.mk.inj h3
        obtain ⟨h4, h5⟩ := (m1 _ _ _).1 h1
        cases hn : N a b with
        | none => exact absurd hn h0
        | some r' => exact ⟨r, r', h5, h4, by first | rfl | exact hn, fun e => h2 (by subst e; simp [hn])⟩
      · rintro ⟨r, r', h1, h2, h3, h4⟩
        exact ⟨s, t, r, ⟨(m1 _ _ _).2 ⟨h2, h1⟩, by simp [h3], by simp only [h3]; simpa using Ne.symm h4⟩, rfl⟩
    · simp only [List.nil_append, List.mem_map, List.mem_filter, Prod.exists, falsy_iff nN]
      constructor
      · rintro ⟨a, b, r, ⟨h1, h2⟩, h3⟩
        obtain ⟨rfl, rfl⟩ := Prod.mk.inj h3
        obtain ⟨h4, h5⟩ := (m1 _ _ _).1 h1
        exact ⟨r, h5, h4, h2⟩
      · rintro ⟨r, h1, h2, h3⟩
        exact ⟨s, t, r, ⟨(m1 _ _ _).2 ⟨h2, h1⟩, h3⟩, rfl⟩
    · simp only [List.nil_append, List.mem_map, List.mem_filter, Prod.exists, falsy_iff nM]
      constructor
      · rintro ⟨a, b, r, ⟨h1, h2⟩, h3⟩
        obtain ⟨rfl, rfl⟩ := Prod.mk.inj h3
        obtain ⟨h4, h5⟩ := (m2 _ _ _).1 h1
        exact ⟨r, h5, h4, h2⟩
      · rintro ⟨r, h1, h2, h3⟩
        exact ⟨s, t, r, ⟨(m2 _ _ _).2 ⟨h2, h1⟩, h3⟩, rfl⟩
    · refine ⟨?_, ?_, ?_, ?_⟩ <;> simp only [List.nil_append]
      · exact (List.filter_sublist.map _).nodup d1
      · exact (List.filter_sublist.map _).nodup d1
      · exact (List.filter_sublist.map _).nodup d1
      · exact (List.filter_sublist.map _).nodup d2

/-- The entries of node pairs, numbered from `k + 1`. -/
def entries (M N : Alignment String String) : Nat → List Nodes → List Entry
  | _, [] => []
  | k, n :: l => ⟨k + 1, n, M n.1 n.2, N n.1 n.2⟩ :: entries M N (k + 1) l

theorem print_eq (hM : ∀ s t, GraphPair.getAlign b.first s t = .ok (M s t))
    (hN : ∀ s t, GraphPair.getAlign b.second s t = .ok (N s t)) (count : Nat) (l : List Nodes) :
    printAlignments b count l = .ok (count + l.length, entries M N count l) := by
  unfold printAlignments
  suffices H : ∀ (l : List Nodes) (c : Nat) (acc : List Entry),
      Py.forIn l (c, acc) (fun n s => do
        let rel1 ← GraphPair.getAlign b.first n.1 n.2
        let rel2 ← GraphPair.getAlign b.second n.1 n.2
        return (s.1 + 1, s.2 ++ [⟨s.1 + 1, n, rel1, rel2⟩])) = .ok (c + l.length, acc ++ entries M N c l) by
    simpa using H l count []
  intro l
  induction l with
  | nil => intro c acc; simp [Py.forIn, entries]
  | cons n l ih =>
    intro c acc
    unfold Py.forIn
    simp only [hM, hN, bind, Except.bind, pure, Except.pure] at ih ⊢
    rw [ih]
    simp [entries, Nat.add_comm, Nat.add_left_comm]

theorem entries_numbers (k : Nat) (l : List Nodes) : (entries M N k l).map (fun e => e.number) = List.range' (k + 1) l.length := by
  induction l generalizing k with
  | nil => rfl
  | cons n l ih => simp [entries, ih, List.range'_succ]

theorem entries_nodes (k : Nat) (l : List Nodes) : (entries M N k l).map (fun e => e.nodes) = l := by
  induction l generalizing k with
  | nil => rfl
  | cons n l ih => simp [entries, ih]

theorem entries_rels (k : Nat) (l : List Nodes) :
    ∀ e ∈ entries M N k l, e.rel1 = M e.nodes.1 e.nodes.2 ∧ e.rel2 = N e.nodes.1 e.nodes.2 := by
  induction l generalizing k with
  | nil => simp [entries]
  | cons n l ih =>
    intro e he
    rcases List.mem_cons.1 he with rfl | he
    · exact ⟨rfl, rfl⟩
    · exact ih _ e he

/-- The order of the printed node pairs. -/
def Ordered (num : String → Option Int) (l : List Nodes) : Prop :=
  l.Pairwise fun a b => ∀ i j, num a.1 = some i → num b.1 = some j → i ≤ j

theorem sort_ok {num : String → Option Int} {l : List Nodes} (h : ∀ x ∈ l, (num x.1).isSome) :
    ∃ l', sortNodes num l = .ok l' ∧ l'.Perm l ∧ Ordered num l' := by
  unfold sortNodes
  by_cases h2 : l.length < 2
  · rw [if_pos h2]
    refine ⟨l, rfl, List.Perm.refl _, ?_⟩
    match l, h2 with
    | [], _ => exact List.Pairwise.nil
    | [x], _ => exact List.pairwise_singleton _ _
    | _ :: _ :: l, h2 => simp only [List.length_cons] at h2; omega
  · rw [if_neg h2, if_pos (List.all_eq_true.2 h)]
    refine ⟨_, rfl, List.perm_insertionSort _ _, ?_⟩
    let r : Nodes → Nodes → Prop := fun a b => (num a.1).getD 0 ≤ (num b.1).getD 0
    have : Std.Total r := ⟨fun a b => le_total _ _⟩
    have : IsTrans Nodes r := ⟨fun a b c h1 h2 => le_trans h1 h2⟩
    have hs := List.pairwise_insertionSort r l
    refine hs.imp ?_
    intro a b hab i j hi hj
    simpa [r, hi, hj] using hab

/-- What one section adds. -/
theorem section_ok {num : String → Option Int} (hM : ∀ s t, GraphPair.getAlign b.first s t = .ok (M s t))
    (hN : ∀ s t, GraphPair.getAlign b.second s t = .ok (N s t)) {l : List Nodes} (h : ∀ x ∈ l, (num x.1).isSome)
    (t : Title) (s : Nat × List (Title × List Entry)) :
    ∃ l', l'.Perm l ∧ Ordered num l' ∧
      section' num b t l s = .ok (s.1 + l'.length, if l' = [] then s.2 else s.2 ++ [(t, entries M N s.1 l')]) := by
  obtain ⟨l', e1, e2, e3⟩ := sort_ok h
  refine ⟨l', e2, e3, ?_⟩
  simp only [section', e1, print_eq hM hN, bind, Except.bind, pure, Except.pure]

end Verif.PgcDiff
