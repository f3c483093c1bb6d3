import Verif.Lemmas.Stats

/-! From sums of contributions to counts. -/
set_option linter.unusedSectionVars false
namespace Verif.Stats
open Verif Verif.Spec.Stats
open Classical

theorem isCol_iff (k r : String) : IsCol k r ↔ (k = "CEQ" ∧ r = "equals") ∨ (k = "CRE" ∧ r = "restates") ∨
    (k = "CSPEC" ∧ r = "specifies") ∨ (k = "CGEN" ∧ r = "generalizes") ∨ (k = "CINT" ∧ r = "intersects") := by
  by_cases h : r ∈ relations
  · unfold relations at h
    simp only [List.mem_cons, List.not_mem_nil, or_false] at h
    rcases h with rfl | rfl | rfl | rfl | rfl <;> simp [IsCol, relColumn] <;> exact ⟨Eq.symm, Eq.symm⟩
  · unfold IsCol
    rw [relColumn_error h]
    unfold relations at h
    simp only [List.mem_cons, List.not_mem_nil, or_false, not_or] at h
    simp [h]

theorem sum_ite {α : Type} (l : List α) (P : α → Prop) (d1 d2 : DecidablePred P) :
    (l.map fun x => @ite _ (P x) (d1 x) 1 0).sum = l.countP fun x => @decide (P x) (d2 x) := by
  induction l with
  | nil => rfl
  | cons x l ih =>
    rw [List.map_cons, List.sum_cons, ih, List.countP_cons]
    by_cases h : P x <;> simp [h]; omega

theorem sum_links (fl : Flags) (W : Nat → SG) (pairs : List SPair) (q : (String × String) × String → Bool) :
    ((kept fl W pairs).map fun p => (counted fl W p).countP q).sum = (links fl W pairs).countP fun x => q x.2 := by
  unfold links
  rw [List.countP_flatMap]
  congr 1
  refine List.map_congr_left fun p _ => ?_
  rw [Function.comp_apply, List.countP_map]
  rfl

theorem sum_links_length (fl : Flags) (W : Nat → SG) (pairs : List SPair) :
    ((kept fl W pairs).map fun p => (counted fl W p).length).sum = (links fl W pairs).length := by
  unfold links
  rw [List.length_flatMap]
  simp

/-- The counts of a row, from the contributions. -/
theorem row_counts (fl : Flags) (W : Nat → SG) (pairs : List SPair) (r : Row)
    (h : ∀ k, r k = ((kept fl W pairs).map fun p => contrib fl W p k).sum) :
    r "CGP" = (kept fl W pairs).length ∧
    r "CGPFP" = (kept fl W pairs).countP (fun p => decide (Failed W p)) ∧
    r "CGPUR" = (kept fl W pairs).countP (fun p => decide (¬ RootLink W p)) ∧
    r "CGPFU" = (kept fl W pairs).countP (fun p => decide (¬ Failed W p ∧ RootLink W p)) ∧
    r "CNP" = (links fl W pairs).length ∧
    r "CEQ" = (links fl W pairs).countP (fun x => decide (x.2.2 = "equals")) ∧
    r "CRE" = (links fl W pairs).countP (fun x => decide (x.2.2 = "restates")) ∧
    r "CSPEC" = (links fl W pairs).countP (fun x => decide (x.2.2 = "specifies")) ∧
    r "CGEN" = (links fl W pairs).countP (fun x => decide (x.2.2 = "generalizes")) ∧
    r "CINT" = (links fl W pairs).countP (fun x => decide (x.2.2 = "intersects")) := by
  refine ⟨?_, ?_, ?_, ?_, ?_, ?_, ?_, ?_, ?_, ?_⟩
  · rw [h]; simp [contrib, isCol_iff]
  · rw [h, ← sum_ite _ (fun p => Failed W p) (fun p => inferInstance)]; simp [contrib, isCol_iff]
  · rw [h, ← sum_ite _ (fun p => ¬ RootLink W p) (fun p => inferInstance)]; simp [contrib, isCol_iff]
  · rw [h, ← sum_ite _ (fun p => ¬ Failed W p ∧ RootLink W p) (fun p => inferInstance)]; simp [contrib, isCol_iff]
  · rw [h, ← sum_links_length]; simp [contrib, isCol_iff]
  all_goals
    rw [h]
    refine Eq.trans ?_ (sum_links fl W pairs (fun a => decide (a.2 = _)))
    simp [contrib, isCol_iff]

end Verif.Stats
