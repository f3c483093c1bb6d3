import Verif.Lemmas.GraphPair

/-! Properties C31, C32, C33 and C34 (lib/daeso/pgc/graphpair.py). -/
namespace Verif.Props.GraphPair
open Verif Verif.Spec Verif.Graph Verif.GraphPair

variable {κ ρ : Type} [DecidableEq κ] [DecidableEq ρ]

/-- The operations on the alignments of a graph pair. -/
inductive Op (κ ρ : Type)
  | add (s t : κ) (r : ρ)
  | del (s t : κ)
  | deepcopy

/-- What an operation means for a mapping; `none`: NetworkXError. -/
def meantMapping (M : Alignment κ ρ) : Op κ ρ → Option (Alignment κ ρ)
  | .add s t r => some (M.put s t r)
  | .del s t => if (M s t).isSome then some (M.drop s t) else none
  | .deepcopy => some M

/-- What an operation means for a matching; `none`: NetworkXError. -/
def meantMatching (M : Alignment κ ρ) : Op κ ρ → Option (Alignment κ ρ)
  | .add s t r => some (M.wed s t r)
  | .del s t => if (M s t).isSome then some (M.drop s t) else none
  | .deepcopy => some M

/-- Run a history of specified operations; the refused ones are marked `true` and change nothing. -/
def runSpec (meant : Alignment κ ρ → Op κ ρ → Option (Alignment κ ρ)) :
    Alignment κ ρ → List (Op κ ρ) → Alignment κ ρ × List Bool
  | M, [] => (M, [])
  | M, op :: ops => match meant M op with
    | some M' => ((runSpec meant M' ops).1, false :: (runSpec meant M' ops).2)
    | none => ((runSpec meant M ops).1, true :: (runSpec meant M ops).2)

/-- An operation of GraphMapping (`one = false`) or GraphMatching (`one = true`). -/
def call (one : Bool) (g : G κ ρ) : Op κ ρ → Py (G κ ρ)
  | .add s t r => if one then matchAlign g s t r else addAlign g s t r
  | .del s t => delAlign g s t
  | .deepcopy => deepcopy g

/-- Run a history; a NetworkXError is caught by the program, any other exception ends it. -/
def run (one : Bool) : G κ ρ → List (Op κ ρ) → Py (G κ ρ × List Bool)
  | g, [] => .ok (g, [])
  | g, op :: ops => match call one g op with
    | .ok g' => (run one g' ops).map fun x => (x.1, false :: x.2)
    | .error .networkXError => (run one g ops).map fun x => (x.1, true :: x.2)
    | .error e => .error e

/-- What a user sees of an alignment: `get_align`, `alignments`, `len` and the nodes. -/
structure Shows (g : G κ ρ) (M : Alignment κ ρ) : Prop where
  get : ∀ s t, getAlign g s t = .ok (M s t)
  all : ∃ l, alignments g none = .ok l ∧ (l.map Prod.fst).Nodup ∧ len g = l.length ∧
    ∀ s t r, ((s, t), r) ∈ l ↔ M s t = some r
  some : ∀ rs, ∃ l, alignments g (some rs) = .ok l ∧ (l.map Prod.fst).Nodup ∧
    ∀ s t r, ((s, t), r) ∈ l ↔ M s t = some r ∧ (r ∈ rs ∨ rs = [])
  nodes : ∀ n, n ∈ nodes g ↔ ∃ b, (M n b).isSome ∨ (M b n).isSome

theorem shows_of {g : G κ ρ} {M : Alignment κ ρ} (h : Al g M (fun _ => False)) : Shows g M := by
  obtain ⟨l, e1, e2, e3, e4⟩ := h.all
  refine ⟨h.get, ⟨l, e1, e3, ?_, e4⟩, ?_, h.nodes⟩
  · unfold len; rw [← e2, List.length_map]
  · intro rs
    cases rs with
    | nil => exact ⟨l, e1, e3, fun s t r => by rw [e4]; simp⟩
    | cons r0 rs =>
      refine ⟨l.filter fun x => decide (x.2 ∈ r0 :: rs), ?_, ?_, ?_⟩
      · simp only [alignments, e1]; rfl
      · exact e3.sublist (List.filter_sublist.map _)
      · intro s t r
        rw [List.mem_filter, e4]; simp

theorem run_mapping {g : G κ ρ} {M : Alignment κ ρ} (h : Al g M (fun _ => False)) (ops : List (Op κ ρ)) :
    ∃ g', run false g ops = .ok (g', (runSpec meantMapping M ops).2) ∧
      Al g' (runSpec meantMapping M ops).1 (fun _ => False) := by
  induction ops generalizing g M with
  | nil => exact ⟨g, rfl, h⟩
  | cons op ops ih =>
    cases op with
    | add s t r =>
      obtain ⟨g1, e1, a1⟩ := h.add s t r
      obtain ⟨g2, e2, a2⟩ := ih (a1.mono (Q := fun _ => False) (by simp))
      refine ⟨g2, ?_, a2⟩
      simp only [run, call, addAlign, e1, e2, Bool.false_eq_true, if_false, Except.map, runSpec, meantMapping]
    | del s t =>
      by_cases hm : (M s t).isSome
      · obtain ⟨g1, e1, a1⟩ := h.del s t hm
        obtain ⟨g2, e2, a2⟩ := ih a1
        refine ⟨g2, ?_, ?_⟩
        · simp only [run, call, e1, e2, Except.map, runSpec, meantMapping, if_pos hm]
        · simp only [runSpec, meantMapping, if_pos hm]; exact a2
      · obtain ⟨g2, e2, a2⟩ := ih h
        refine ⟨g2, ?_, ?_⟩
        · simp only [run, call, h.del_absent s t (by simpa using hm), e2, Except.map, runSpec, meantMapping,
            if_neg hm]
        · simp only [runSpec, meantMapping, if_neg hm]; exact a2
    | deepcopy =>
      obtain ⟨g1, e1, a1⟩ := h.copy
      obtain ⟨g2, e2, a2⟩ := ih a1
      refine ⟨g2, ?_, a2⟩
      simp only [run, call, e1, e2, Except.map, runSpec, meantMapping]

private theorem run_matching {g : G κ ρ} {M : Alignment κ ρ} (h : Al g M (fun _ => False)) (h11 : M.OneToOne)
    (ops : List (Op κ ρ)) :
    ∃ g', run true g ops = .ok (g', (runSpec meantMatching M ops).2) ∧
      Al g' (runSpec meantMatching M ops).1 (fun _ => False) ∧ (runSpec meantMatching M ops).1.OneToOne := by
  induction ops generalizing g M with
  | nil => exact ⟨g, rfl, h, h11⟩
  | cons op ops ih =>
    cases op with
    | add s t r =>
      obtain ⟨g1, e1, a1⟩ := h.wed h11 s t r
      obtain ⟨g2, e2, a2⟩ := ih a1 (oneToOne_wed h11 s t r)
      refine ⟨g2, ?_, a2⟩
      simp only [run, call, e1, e2, if_true, Except.map, runSpec, meantMatching]
    | del s t =>
      by_cases hm : (M s t).isSome
      · obtain ⟨g1, e1, a1⟩ := h.del s t hm
        obtain ⟨g2, e2, a2⟩ := ih a1 (oneToOne_drop h11 s t)
        refine ⟨g2, ?_, ?_⟩
        · simp only [run, call, e1, e2, Except.map, runSpec, meantMatching, if_pos hm]
        · simp only [runSpec, meantMatching, if_pos hm]; exact a2
      · obtain ⟨g2, e2, a2⟩ := ih h h11
        refine ⟨g2, ?_, ?_⟩
        · simp only [run, call, h.del_absent s t (by simpa using hm), e2, Except.map, runSpec, meantMatching,
            if_neg hm]
        · simp only [runSpec, meantMatching, if_neg hm]; exact a2
    | deepcopy =>
      obtain ⟨g1, e1, a1⟩ := h.copy
      obtain ⟨g2, e2, a2⟩ := ih a1 h11
      refine ⟨g2, ?_, a2⟩
      simp only [run, call, e1, e2, Except.map, runSpec, meantMatching]

/-- C31.  Every history of a GraphMapping shows the finite map that the operations describe, only NetworkXErrors
for deletions of absent pairs are raised, and no unaligned node stays behind. -/
theorem mapping_refines (ops : List (Op κ ρ)) :
    ∃ g, run false empty ops = .ok (g, (runSpec meantMapping Alignment.none ops).2) ∧
      Shows g (runSpec meantMapping Alignment.none ops).1 := by
  obtain ⟨g, e1, a1⟩ := run_mapping (Al.empty (κ := κ) (ρ := ρ)) ops
  exact ⟨g, e1, shows_of a1⟩

private theorem oneToOne_none : (Alignment.none : Alignment κ ρ).OneToOne := by
  intro a b a' b' h; simp [Alignment.none] at h

/-- C32.  Every history of a GraphMatching shows the finite map in which each addition drops just the alignments
that share its source or its target. -/
theorem matching_refines (ops : List (Op κ ρ)) :
    ∃ g, run true empty ops = .ok (g, (runSpec meantMatching Alignment.none ops).2) ∧
      Shows g (runSpec meantMatching Alignment.none ops).1 := by
  obtain ⟨g, e1, a1, _⟩ := run_matching (Al.empty (κ := κ) (ρ := ρ)) oneToOne_none ops
  exact ⟨g, e1, shows_of a1⟩

/-- C32.  A GraphMatching is one-to-one after every history. -/
theorem matching_one_to_one (ops : List (Op κ ρ)) {g : G κ ρ} {errs : List Bool} (h : run true empty ops = .ok (g, errs))
    {s t s' t' : κ} {r r' : ρ} (h1 : getAlign g s t = .ok (some r)) (h2 : getAlign g s' t' = .ok (some r')) :
    s = s' ↔ t = t' := by
  obtain ⟨g', e1, a1, a2⟩ := run_matching (Al.empty (κ := κ) (ρ := ρ)) oneToOne_none ops
  have : g' = g := by rw [e1] at h; simp only [Except.ok.injEq, Prod.mk.injEq] at h; exact h.1
  subst this
  rw [a1.get] at h1 h2
  simp only [Except.ok.injEq] at h1 h2
  exact a2 s t s' t' (by rw [h1]; rfl) (by rw [h2]; rfl)

/-- C32.  `get_aligned_target_node` and `get_aligned_source_node` give the partner, or None if there is none. -/
theorem matching_partners (ops : List (Op κ ρ)) {g : G κ ρ} {errs : List Bool} (h : run true empty ops = .ok (g, errs))
    (s t : κ) :
    (alignedTarget g s = some t ↔ ∃ r, getAlign g s t = .ok (some r)) ∧
    (alignedSource g t = some s ↔ ∃ r, getAlign g s t = .ok (some r)) := by
  obtain ⟨g', e1, a1, a2⟩ := run_matching (Al.empty (κ := κ) (ρ := ρ)) oneToOne_none ops
  have : g' = g := by rw [e1] at h; simp only [Except.ok.injEq, Prod.mk.injEq] at h; exact h.1
  subst this
  generalize (runSpec meantMatching Alignment.none ops).1 = M at a1 a2
  simp only [a1.get, Except.ok.injEq]
  rw [show (∃ r, M s t = some r) ↔ (M s t).isSome from Option.isSome_iff_exists.symm]
  constructor
  · have hh := a1.succ_head s
    have hA : alignedTarget g' s = (g'.succ.get? s).bind fun m => m.keys.head? := by
      unfold alignedTarget successors
      cases g'.succ.get? s <;> rfl
    rw [hA]
    split at hh
    · rename_i hn; rw [hn]; simp [hh t]
    · rename_i b hb
      rw [hb, Option.some.injEq]
      constructor
      · rintro rfl; exact hh
      · intro hm; exact (a2 s b s t hh hm).1 rfl
  · have hh := a1.pred_head t
    have hA : alignedSource g' t = (g'.pred.get? t).bind fun m => m.keys.head? := by
      unfold alignedSource predecessors
      cases g'.pred.get? t <;> rfl
    rw [hA]
    split at hh
    · rename_i hn; rw [hn]; simp [hh s]
    · rename_i b hb
      rw [hb, Option.some.injEq]
      constructor
      · rintro rfl; exact hh
      · intro hm; exact (a2 b t s t hh hm).2 rfl

private theorem match_iff {h : G κ ρ} {N : Alignment κ ρ} {P : κ → Prop} (hN : Al h N P) (l : List ((κ × κ) × ρ)) :
    ∃ b, alignmentsMatch h l = .ok b ∧ (b = true ↔ ∀ s t r, ((s, t), r) ∈ l → N s t = some r) := by
  induction l with
  | nil => exact ⟨true, rfl, by simp⟩
  | cons x l ih =>
    obtain ⟨⟨s, t⟩, r⟩ := x
    obtain ⟨b, e1, e2⟩ := ih
    unfold alignmentsMatch
    rw [hN.lookup]
    cases hm : N s t with
    | none =>
      refine ⟨false, rfl, ?_⟩
      simp only [Bool.false_eq_true, false_iff]
      intro hc
      have := hc s t r (by simp)
      rw [hm] at this; simp at this
    | some r' =>
      dsimp only
      by_cases hr : r' = r
      · subst hr
        rw [if_neg (by simp)]
        refine ⟨b, e1, ?_⟩
        rw [e2]
        constructor
        · intro hh s' t' r'' hmem
          rw [List.mem_cons] at hmem
          rcases hmem with hmem | hmem
          · simp only [Prod.mk.injEq] at hmem
            rw [hmem.1.1, hmem.1.2, hmem.2]; exact hm
          · exact hh s' t' r'' hmem
        · intro hh s' t' r'' hmem; exact hh s' t' r'' (by simp [hmem])
      · rw [if_pos hr]
        refine ⟨false, rfl, ?_⟩
        simp only [Bool.false_eq_true, false_iff]
        intro hc
        have := hc s t r (by simp)
        rw [hm] at this
        exact hr (by simpa using this)

private theorem equal_iff {g h : G κ ρ} {M N : Alignment κ ρ} {P Q : κ → Prop} (hM : Al g M P) (hN : Al h N Q) :
    ∃ b, alignmentsEqual g h = .ok b ∧ (b = true ↔ M = N) := by
  obtain ⟨l, e1, e2, e3, e4⟩ := hM.all
  obtain ⟨l', e1', e2', e3', e4'⟩ := hN.all
  unfold alignmentsEqual
  by_cases hl : len g = len h
  · rw [if_pos hl]
    simp only [alignments, e1]
    obtain ⟨b, i1, i2⟩ := match_iff hN l
    refine ⟨b, i1, ?_⟩
    rw [i2]
    constructor
    · intro hsub
      -- the pairs of `l` are among those of `l'`, and there are as many
      have hsubset : l.map Prod.fst ⊆ l'.map Prod.fst := by
        intro e he
        rw [List.mem_map] at he ⊢
        obtain ⟨⟨⟨s, t⟩, r⟩, hx, rfl⟩ := he
        exact ⟨((s, t), r), (e4' s t r).2 (hsub s t r hx), rfl⟩
      have hlen : (l'.map Prod.fst).length ≤ (l.map Prod.fst).length := by
        rw [e2, e2']; unfold len at hl; omega
      have hperm := (List.subperm_of_subset e3 hsubset).perm_of_length_le hlen
      funext s t
      cases hm : M s t with
      | some r => exact (hsub s t r ((e4 s t r).2 hm)).symm
      | none =>
        cases hn : N s t with
        | none => rfl
        | some r =>
          have h1 : (s, t) ∈ l'.map Prod.fst := List.mem_map.2 ⟨_, (e4' s t r).2 hn, rfl⟩
          rw [← hperm.mem_iff, List.mem_map] at h1
          obtain ⟨⟨⟨s', t'⟩, r'⟩, hx, hxx⟩ := h1
          simp only [Prod.mk.injEq] at hxx
          obtain ⟨rfl, rfl⟩ := hxx
          rw [e4, hm] at hx; simp at hx
    · rintro rfl s t r hx; exact (e4 s t r).1 hx
  · rw [if_neg hl]
    refine ⟨false, rfl, ?_⟩
    simp only [Bool.false_eq_true, false_iff]
    rintro rfl
    apply hl
    unfold len
    rw [← e2, ← e2']
    apply List.Perm.length_eq
    rw [List.perm_ext_iff_of_nodup e3 e3']
    rintro ⟨s, t⟩
    simp only [List.mem_map, Prod.exists, exists_and_right, exists_eq_right, e4, e4']

/-- C33.  The alignments of two graph pairs (mappings or matchings) with any histories compare equal exactly when
`get_align` agrees on all pairs. -/
theorem alignments_equal_iff (one one' : Bool) (ops ops' : List (Op κ ρ)) {g h : G κ ρ} {eg eh : List Bool}
    (hg : run one empty ops = .ok (g, eg)) (hh : run one' empty ops' = .ok (h, eh)) :
    ∃ b, alignmentsEqual g h = .ok b ∧ (b = true ↔ ∀ s t, getAlign g s t = getAlign h s t) := by
  have key : ∀ (one : Bool) (ops : List (Op κ ρ)) (g : G κ ρ) (eg : List Bool), run one empty ops = .ok (g, eg) →
      ∃ M : Alignment κ ρ, Al g M (fun _ => False) := by
    intro one ops g eg hg
    cases one with
    | false =>
      obtain ⟨g', e1, a1⟩ := run_mapping (Al.empty (κ := κ) (ρ := ρ)) ops
      rw [e1] at hg
      simp only [Except.ok.injEq, Prod.mk.injEq] at hg
      exact ⟨_, hg.1 ▸ a1⟩
    | true =>
      obtain ⟨g', e1, a1, _⟩ := run_matching (Al.empty (κ := κ) (ρ := ρ)) oneToOne_none ops
      rw [e1] at hg
      simp only [Except.ok.injEq, Prod.mk.injEq] at hg
      exact ⟨_, hg.1 ▸ a1⟩
  obtain ⟨M, hM⟩ := key one ops g eg hg
  obtain ⟨N, hN⟩ := key one' ops' h eh hh
  obtain ⟨b, e1, e2⟩ := equal_iff hM hN
  refine ⟨b, e1, ?_⟩
  rw [e2]
  simp only [hM.get, hN.get, Except.ok.injEq]
  exact ⟨fun h s t => by rw [h], fun h => by funext s t; exact h s t⟩

/-- C33.  The comparison does not depend on the order in which a history inserted the alignments: it looks only at
the finite map that the history describes. -/
theorem alignments_equal_of_same_map (one : Bool) (ops ops' : List (Op κ ρ)) {g h : G κ ρ} {eg eh : List Bool}
    (hg : run one empty ops = .ok (g, eg)) (hh : run one empty ops' = .ok (h, eh)) :
    alignmentsEqual g h = .ok true ↔
      (runSpec (if one then meantMatching else meantMapping) Alignment.none ops).1 =
      (runSpec (if one then meantMatching else meantMapping) Alignment.none ops').1 := by
  have key : ∀ (ops : List (Op κ ρ)) (g : G κ ρ) (eg : List Bool), run one empty ops = .ok (g, eg) →
      Al g (runSpec (if one then meantMatching else meantMapping) Alignment.none ops).1 (fun _ => False) := by
    intro ops g eg hg
    cases one with
    | false =>
      obtain ⟨g', e1, a1⟩ := run_mapping (Al.empty (κ := κ) (ρ := ρ)) ops
      rw [e1] at hg
      simp only [Except.ok.injEq, Prod.mk.injEq] at hg
      exact hg.1 ▸ a1
    | true =>
      obtain ⟨g', e1, a1, _⟩ := run_matching (Al.empty (κ := κ) (ρ := ρ)) oneToOne_none ops
      rw [e1] at hg
      simp only [Except.ok.injEq, Prod.mk.injEq] at hg
      exact hg.1 ▸ a1
  obtain ⟨b, e1, e2⟩ := equal_iff (key ops g eg hg) (key ops' h eh hh)
  rw [e1, Except.ok.injEq, e2]

/-- C34.  What `roots_aligned` computes, after any history: whether the source root is aligned to a target node of
the same name.  The target root plays no role. -/
theorem roots_aligned_computes (ops : List (Op κ ρ)) (one : Bool) {g : G κ ρ} {eg : List Bool}
    (hg : run one empty ops = .ok (g, eg)) (source target : κ) :
    (rootsAligned g source target = true ↔ ∃ r, getAlign g source source = .ok (some r)) ∧
    (source = target → (rootsAligned g source target = true ↔ ∃ r, getAlign g source target = .ok (some r))) := by
  have hmain : ∀ M : Alignment κ ρ, Al g M (fun _ => False) →
      (rootsAligned g source target = true ↔ ∃ r, getAlign g source source = .ok (some r)) := by
    intro M hM
    obtain ⟨s, h1, _⟩ := hM.ex
    simp only [hM.get, Except.ok.injEq]
    rw [show (∃ r, M source source = some r) ↔ (M source source).isSome from Option.isSome_iff_exists.symm,
      ← hM.edge h1, ← h1.ref_iff]
    rfl
  have h : rootsAligned g source target = true ↔ ∃ r, getAlign g source source = .ok (some r) := by
    cases one with
    | false =>
      obtain ⟨g', e1, a1⟩ := run_mapping (Al.empty (κ := κ) (ρ := ρ)) ops
      rw [e1] at hg
      simp only [Except.ok.injEq, Prod.mk.injEq] at hg
      exact hmain _ (hg.1 ▸ a1)
    | true =>
      obtain ⟨g', e1, a1, _⟩ := run_matching (Al.empty (κ := κ) (ρ := ρ)) oneToOne_none ops
      rw [e1] at hg
      simp only [Except.ok.injEq, Prod.mk.injEq] at hg
      exact hmain _ (hg.1 ▸ a1)
  exact ⟨h, by rintro rfl; exact h⟩

/-- C34 is false of the code: aligned roots of different names are reported as not aligned. -/
theorem roots_aligned_wrong (s t : κ) (hst : s ≠ t) (r : ρ) :
    ∃ g eg, run false empty [Op.add s t r] = .ok (g, eg) ∧ getAlign g s t = .ok (some r) ∧
      rootsAligned g s t = false := by
  obtain ⟨g, e1, a1⟩ := run_mapping (Al.empty (κ := κ) (ρ := ρ)) [Op.add s t r]
  refine ⟨g, _, e1, ?_, ?_⟩
  · rw [a1.get]; simp [runSpec, meantMapping, Alignment.put]
  · rw [← Bool.not_eq_true, (roots_aligned_computes [Op.add s t r] false e1 s t).1]
    rw [a1.get]
    simp [runSpec, meantMapping, Alignment.put, Alignment.none, hst]

/-! ### Concrete cases -/

example : (run true empty [Op.add "1" "a" "equals", .add "2" "b" "restates", .add "1" "b" "equals", .del "3" "c",
      .add "b" "1" "equals"]).map (fun x => (alignments x.1 none, nodes x.1, x.2)) =
    .ok (.ok [(("1", "b"), "equals"), (("b", "1"), "equals")], ["1", "b"], [false, false, false, true, false]) := by
  decide +kernel

example : (run false empty [Op.add "1" "1" "equals", .add "2" "b" "restates", .add "1" "b" "equals", .del "1" "1"]).map
      (fun x => (alignments x.1 (some ["equals"]), nodes x.1, x.2)) =
    .ok (.ok [(("1", "b"), "equals")], ["1", "2", "b"], [false, false, false, false]) := by
  decide +kernel

end Verif.Props.GraphPair
