import Verif.Lemmas.StatsTableRun

/-! The columns of a new table (C65). -/
namespace Verif.StatsTable
open Verif Verif.Etree Verif.DaesoGraph Verif.Spec.StatsTable

theorem splitLines_ne (s : Text) : splitLines s ≠ [] := by
  cases s with
  | nil => simp [splitLines]
  | cons c s => rw [splitLines]; split <;> [simp; (split <;> simp)]

theorem splitLines_line {l : Text} (h : '\n' ∉ l) : splitLines l = [l] := by
  induction l with
  | nil => rfl
  | cons c l ih =>
    rw [List.mem_cons, not_or] at h
    rw [splitLines, if_neg (Ne.symm h.1), ih h.2]

theorem splitLines_cons {l : Text} (h : '\n' ∉ l) (r : Text) : splitLines (l ++ '\n' :: r) = l :: splitLines r := by
  induction l with
  | nil => rw [List.nil_append, splitLines, if_pos rfl]
  | cons c l ih =>
    rw [List.mem_cons, not_or] at h
    rw [List.cons_append, splitLines, if_neg (Ne.symm h.1), ih h.2]

theorem splitLines_intercalate : ∀ {ls : List Text}, ls ≠ [] → (∀ l ∈ ls, '\n' ∉ l) →
    splitLines (['\n'].intercalate ls) = ls
  | [l], _, h => by rw [List.intercalate_singleton]; exact splitLines_line (h l (by simp))
  | l :: m :: ls, _, h => by
    rw [List.intercalate_cons_cons, List.append_assoc, List.singleton_append, splitLines_cons (h l (by simp)),
      splitLines_intercalate (by simp) fun x hx => h x (by simp [hx])]

theorem firsts_append (l : List Text) (x : Text) :
    firsts (l ++ [x]) = if x ∈ l then firsts l else firsts l ++ [x] := by
  induction l with
  | nil => simp [firsts]
  | cons y l ih =>
    rw [List.cons_append, firsts, ih, firsts]
    by_cases hy : x = y
    · subst hy
      by_cases hx : x ∈ l <;> simp [hx]
    · by_cases hx : x ∈ l <;> simp [hx, hy]

theorem firsts_mem (l : List Text) (x : Text) : x ∈ firsts l ↔ x ∈ l := by
  induction l with
  | nil => simp [firsts]
  | cons y l ih => rw [firsts]; by_cases h : x = y <;> simp [h, ih]

theorem setColumn_labels (t : Table) (c : Column) : (setColumn t c).map Column.label =
    if c.label ∈ t.map Column.label then t.map Column.label else t.map Column.label ++ [c.label] := by
  unfold setColumn
  have hiff : (t.any fun d => d.label = c.label) = true ↔ c.label ∈ t.map Column.label := by simp
  by_cases h : c.label ∈ t.map Column.label
  · rw [if_pos (hiff.2 h), if_pos h, List.map_map]
    refine List.map_congr_left fun d _ => ?_
    simp only [Function.comp]
    split
    · rename_i hd; exact hd.symm
    · rfl
  · rw [if_neg (mt hiff.1 h), if_neg h]; simp

theorem setColumn_mem' {t : Table} {c d : Column} (h : d ∈ setColumn t c) : (d ∈ t ∧ d.label ≠ c.label) ∨ d = c := by
  unfold setColumn at h
  split at h
  · obtain ⟨x, hx, rfl⟩ := List.mem_map.1 h
    split
    · exact Or.inr rfl
    · rename_i hn; exact Or.inl ⟨hx, hn⟩
  · rename_i hn
    rcases List.mem_append.1 h with h | h
    · exact Or.inl ⟨h, fun e => hn (by rw [List.any_eq_true]; exact ⟨d, h, by simpa using e⟩)⟩
    · exact Or.inr (by simpa using h)

theorem newCells (ty : Text) (n : Nat) : NewCells ty n ((Cells.ofType ty).grow n) := by
  unfold Cells.ofType NewCells
  split
  · rfl
  · split <;> rfl

theorem forIn_snoc {α β : Type} (l : List α) (x : α) (s : β) (f : α → β → Py β) :
    Py.forIn (l ++ [x]) s f = Py.forIn l s f >>= f x := by
  induction l generalizing s with
  | nil => cases h : f x s <;> simp [Py.forIn, bind, Except.bind, h]
  | cons y l ih =>
    rw [List.cons_append, Py.forIn, Py.forIn]
    cases h : f y s with
    | error e => rfl
    | ok s' => exact ih s'

theorem init_run (ws : Char → Bool) (n : Nat) (ls : List Text) :
    (∃ r ∈ defined ws ls, r.length = 1) ∧ Py.forIn ls [] (initStep ws n) = .error .indexError ∨
    (∀ r ∈ defined ws ls, 2 ≤ r.length) ∧ ∃ t, Py.forIn ls [] (initStep ws n) = .ok t ∧ Defines n (defined ws ls) t := by
  induction ls using List.reverseRecOn with
  | nil => exact Or.inr ⟨by simp [defined], [], rfl, by simp [defined, firsts], by simp⟩
  | append_singleton ls l ih =>
    have hd : defined ws (ls ++ [l]) = defined ws ls ++ defined ws [l] := by simp [defined]
    rcases ih with ⟨⟨r, hr, h1⟩, h2⟩ | ⟨h1, t, h2, h3, h4⟩
    · exact Or.inl ⟨⟨r, by rw [hd]; simp [hr], h1⟩, by rw [forIn_snoc, h2]; rfl⟩
    · have hrun : Py.forIn (ls ++ [l]) [] (initStep ws n) = initStep ws n l t := by
        rw [forIn_snoc, h2]; rfl
      rw [hrun, hd]
      unfold initStep
      rw [splitWs_strip]
      cases hw : splitWs ws l with
      | nil =>
        have : defined ws [l] = [] := by simp [defined, hw]
        rw [this, List.append_nil]
        exact Or.inr ⟨h1, t, rfl, h3, h4⟩
      | cons lab r =>
        have hdl : defined ws [l] = [lab :: r] := by simp [defined, hw]
        rw [hdl]
        cases r with
        | nil => exact Or.inl ⟨⟨[lab], by simp, rfl⟩, rfl⟩
        | cons ty r =>
          refine Or.inr ⟨?_, _, rfl, ?_, ?_⟩
          · intro x hx
            rcases List.mem_append.1 hx with hx | hx
            · exact h1 x hx
            · simp at hx; subst hx; simp
          · rw [setColumn_labels, h3, List.map_append, List.map_cons, List.map_nil, firsts_append]
            have hm := firsts_mem ((defined ws ls).map fun r => r.headD []) lab
            by_cases h : lab ∈ (defined ws ls).map fun r => r.headD []
            · exact (if_pos (hm.2 h)).trans (if_pos h).symm
            · exact (if_neg (mt hm.1 h)).trans (if_neg h).symm
          · intro c hc
            rcases setColumn_mem' hc with ⟨hc, hn⟩ | rfl
            · obtain ⟨a, ty', ws', b, e, hb, h5⟩ := h4 c hc
              refine ⟨a, ty', ws', b ++ [lab :: ty :: r], by rw [e]; simp, ?_, h5⟩
              intro x hx
              rcases List.mem_append.1 hx with hx | hx
              · exact hb x hx
              · simp at hx; subst hx; simpa using Ne.symm hn
            · exact ⟨defined ws ls, ty, r, [], by simp, by simp, rfl, newCells ty n, rfl⟩

end Verif.StatsTable
