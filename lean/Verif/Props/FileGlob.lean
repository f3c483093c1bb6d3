import Verif.Model.FileGlob
import Verif.Spec.FileGlob
import Verif.Lemmas.SplitJoinNames

/-! C90: files for patterns. -/
namespace Verif.Props.FileGlob
open Verif Verif.FileGlob Verif.Spec.FileGlob

private theorem star_iff (f : Text → Bool) (s : Text) : FileGlob.star f s = true ↔ ∃ u t, s = u ++ t ∧ f t = true := by
  induction s with
  | nil =>
    constructor
    · intro h; exact ⟨[], [], rfl, h⟩
    · rintro ⟨u, t, h, h'⟩
      have := List.append_eq_nil_iff.1 h.symm
      rw [this.2] at h'; exact h'
  | cons c s ih =>
    simp only [FileGlob.star, Bool.or_eq_true, ih]
    constructor
    · rintro (h | ⟨u, t, h, h'⟩)
      · exact ⟨[], _, rfl, h⟩
      · exact ⟨c :: u, t, by rw [h]; rfl, h'⟩
    · rintro ⟨u, t, h, h'⟩
      cases u with
      | nil => left; rw [List.nil_append] at h; rw [h]; exact h'
      | cons d u =>
        rw [List.cons_append, List.cons.injEq] at h
        exact Or.inr ⟨u, t, h.2, h'⟩

/-- The test of a name is exact: it succeeds if and only if the name has the form of the pattern. -/
theorem form (p s : Text) : fnmatch p s = true ↔ Form p s := by
  induction p generalizing s with
  | nil =>
    simp only [fnmatch, List.isEmpty_iff]
    constructor
    · rintro rfl; exact .done
    · intro h; cases h; rfl
  | cons a p ih =>
    by_cases ha : a = '*'
    · subst ha
      simp only [fnmatch, if_pos, star_iff]
      constructor
      · rintro ⟨u, t, rfl, h⟩; exact .star u rfl ((ih t).1 h)
      · intro h
        cases h with
        | star u h h' => exact ⟨u, _, h, (ih _).2 h'⟩
        | same h _ _ => exact absurd rfl h
    · simp only [fnmatch, if_neg ha]
      cases s with
      | nil =>
        constructor
        · intro h; simp at h
        · intro h
          cases h
          exact absurd rfl ha
      | cons c s =>
        simp only [Bool.and_eq_true, Bool.or_eq_true, beq_iff_eq, ih]
        constructor
        · rintro ⟨h | h, h'⟩
          · subst h; exact .any c h'
          · by_cases hq : a = '?'
            · subst hq; exact .any c h'
            · subst h; exact .same ha hq h'
        · intro h
          cases h with
          | star => exact absurd rfl ha
          | any _ h => exact ⟨Or.inl rfl, h⟩
          | same _ _ h => exact ⟨Or.inr rfl, h⟩

private theorem form_plain {p : Text} (h1 : '*' ∉ p) (h2 : '?' ∉ p) (s : Text) : Form p s ↔ s = p := by
  induction p generalizing s with
  | nil =>
    constructor
    · intro h; cases h; rfl
    · rintro rfl; exact .done
  | cons a p ih =>
    simp only [List.mem_cons, not_or] at h1 h2
    constructor
    · intro h
      cases h with
      | star => exact absurd rfl h1.1
      | any => exact absurd rfl h2.1
      | same _ _ h => rw [(ih h1.2 h2.2 _).1 h]
    · rintro rfl
      exact .same (Ne.symm h1.1) (Ne.symm h2.1) ((ih h1.2 h2.2 _).2 rfl)

private theorem pyGlob_mem {names : List Text} {p : Text} (hb : '[' ∉ p) (fn : Text) :
    fn ∈ pyGlob names p ↔ Selects names p fn := by
  unfold pyGlob Selects
  by_cases hm : '*' ∈ p ∨ '?' ∈ p
  · have hmag : magic p = true := by
      simp only [magic, List.any_eq_true, Bool.or_eq_true, beq_iff_eq]
      rcases hm with h | h
      · exact ⟨_, h, Or.inl (Or.inl rfl)⟩
      · exact ⟨_, h, Or.inl (Or.inr rfl)⟩
    have hdots : ¬ (p = ['.'] ∨ p = ['.', '.']) := by
      rintro (rfl | rfl) <;> simp at hm
    rw [if_pos hmag, List.mem_filter, form]
    by_cases hd : p.head? = some '.'
    · rw [if_pos hd]; simp only [hd, hdots, and_false, or_false, implies_true, and_true]
    · rw [if_neg hd]; simp only [List.mem_filter, bne_iff_ne, hd, hdots, false_and, and_false, or_false, hm, true_imp_iff]
      constructor
      · rintro ⟨⟨a, b⟩, c⟩; exact ⟨a, c, fun h => b h⟩
      · rintro ⟨a, c, b⟩; exact ⟨⟨a, fun h => b h⟩, c⟩
  · have h1 : '*' ∉ p := fun h => hm (Or.inl h)
    have h2 : '?' ∉ p := fun h => hm (Or.inr h)
    have hmag : ¬ magic p = true := by
      simp only [magic, List.any_eq_true, Bool.or_eq_true, beq_iff_eq]
      rintro ⟨c, hc, (rfl | rfl) | rfl⟩
      · exact h1 hc
      · exact h2 hc
      · exact hb hc
    rw [if_neg hmag, form_plain h1 h2]
    simp only [hm, false_imp_iff, and_true]
    split
    · rename_i h
      rw [List.mem_singleton]
      constructor
      · rintro rfl
        rcases h with h | h
        · exact Or.inl ⟨h, rfl⟩
        · exact Or.inr ⟨rfl, h⟩
      · rintro (⟨_, h⟩ | ⟨h, _⟩) <;> exact h
    · rename_i h
      constructor
      · intro h; cases h
      · rintro (⟨h', rfl⟩ | ⟨rfl, h'⟩)
        · exact absurd (Or.inl h') h
        · exact absurd (Or.inr h') h

private theorem pyGlob_nodup {names : List Text} (hn : names.Nodup) (p : Text) : (pyGlob names p).Nodup := by
  unfold pyGlob
  split
  · refine List.Nodup.filter _ ?_
    split
    · exact hn
    · exact hn.filter _
  · split
    · exact List.nodup_singleton _
    · exact List.nodup_nil

private theorem inOrder_of {l : List Text} : (l.mergeSort fun x y => decide (String.ofList x ≤ String.ofList y)).Pairwise
    fun x y => String.ofList x ≤ String.ofList y := by
  have := List.pairwise_mergeSort (le := fun x y : Text => decide (String.ofList x ≤ String.ofList y))
    (fun a b c h1 h2 => by
      rw [decide_eq_true_eq] at *
      exact le_trans h1 h2)
    (fun a b => by
      rw [Bool.or_eq_true, decide_eq_true_eq, decide_eq_true_eq]
      exact le_total _ _) l
  exact this.imp fun h => by simpa using h

private theorem le_or {x y : Text} (h : String.ofList x ≤ String.ofList y) : x = y ∨ x < y := by
  rcases eq_or_lt_of_le h with h | h
  · have := congrArg String.toList h
    rw [String.toList_ofList, String.toList_ofList] at this
    exact Or.inl this
  · rw [String.lt_iff_toList_lt, String.toList_ofList, String.toList_ofList] at h
    exact Or.inr h

/-- `glob` gives the files that the pattern selects, each once and in order. -/
theorem found {names : List Text} (hn : names.Nodup) {p : Text} (hb : '[' ∉ p) :
    InOrder (glob names p) ∧ (glob names p).Nodup ∧ ∀ fn, fn ∈ glob names p ↔ Selects names p fn := by
  refine ⟨inOrder_of.imp le_or, (List.mergeSort_perm _ _).nodup_iff.2 (pyGlob_nodup hn p), fun fn => ?_⟩
  rw [← pyGlob_mem hb]
  exact (List.mergeSort_perm _ _).mem_iff

/-- `multiglob` gives the files in order, each as often as patterns select it: a file selected by two patterns is there
twice, a pattern that selects nothing (or a name of no file) is passed over in silence. -/
theorem times {names : List Text} (hn : names.Nodup) {ps : List Text} (hb : ∀ p ∈ ps, '[' ∉ p) (fn : Text)
    (sel : Text → Bool) (hs : ∀ p, sel p = true ↔ Selects names p fn) :
    InOrder (multiglob names ps) ∧ (multiglob names ps).count fn = ps.countP sel := by
  refine ⟨inOrder_of.imp le_or, ?_⟩
  unfold multiglob SplitJoin.multiglob
  rw [(List.mergeSort_perm _ _).count_eq]
  induction ps with
  | nil => rfl
  | cons p ps ih =>
    rw [List.flatMap_cons, List.count_append, ih fun q hq => hb q (List.mem_cons_of_mem _ hq), List.countP_cons,
      (pyGlob_nodup hn p).count, Nat.add_comm]
    have h := pyGlob_mem (names := names) (hb p List.mem_cons_self) fn
    simp only [h, ← hs p]

/-- Neither the order of the patterns nor the order in which the system lists the directory matters. -/
theorem order {names names' ps ps' : List Text} (hn : names.Perm names') (hp : ps.Perm ps') :
    multiglob names ps = multiglob names' ps' ∧ ∀ p, glob names p = glob names' p := by
  have h1 : ∀ p, (pyGlob names p).Perm (pyGlob names' p) := by
    intro p
    unfold pyGlob
    by_cases hd : p.head? = some '.'
    · simp only [if_pos hd, hn.mem_iff]
      split
      · exact hn.filter _
      · exact List.Perm.refl _
    · simp only [if_neg hd, hn.mem_iff]
      split
      · exact (hn.filter _).filter _
      · exact List.Perm.refl _
  have h2 : ∀ qs : List Text, (qs.flatMap (pyGlob names)).Perm (qs.flatMap (pyGlob names')) := by
    intro qs
    induction qs with
    | nil => exact List.Perm.refl _
    | cons q qs ih => simpa only [List.flatMap_cons] using (h1 q).append ih
  constructor
  · exact SplitJoin.multiglob_eq
      ((hp.flatMap_right _).trans ((h2 ps').trans (List.mergeSort_perm _ _).symm)) inOrder_of
  · intro p
    have h := SplitJoin.multiglob_eq (glob := fun _ => pyGlob names p) (pats := [p]) (l := glob names' p)
      (by simpa [glob] using (h1 p).trans (List.mergeSort_perm _ _).symm) inOrder_of
    simpa [SplitJoin.multiglob, glob] using h

private def dir : List Text := ["b1.xml".toList, ".c.xml".toList, "a10.xml".toList, "a2.xml".toList]

/-- Three files for the four patterns, one of them twice; the hidden file is passed over, as is the name of no file. -/
example : multiglob dir ["a*.xml".toList, "a?.xml".toList, "*.txt".toList, "none.xml".toList] =
    ["a10.xml".toList, "a2.xml".toList, "a2.xml".toList] :=
  SplitJoin.multiglob_eq (by decide +kernel) (by decide +kernel)

example : dir.Nodup ∧ (∀ p ∈ ["a*.xml".toList, "a?.xml".toList, "none.xml".toList], '[' ∉ p) ∧
    pyGlob dir ".*".toList = [".c.xml".toList] ∧ pyGlob dir "*.xml".toList = ["b1.xml".toList, "a10.xml".toList, "a2.xml".toList] := by
  decide +kernel

end Verif.Props.FileGlob
