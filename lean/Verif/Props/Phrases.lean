import Verif.Lemmas.Phrases

/-! Property C73 (bin/pgc_extract_phrases.py). -/
namespace Verif.Props.Phrases
open Verif Verif.Spec Verif.Phrases Verif.Spec.Phrases

/-- Every aligned node pair with its relation, once, in some order. -/
structure Lists (M : Alignment String String) (l : List ((String × String) × String)) : Prop where
  once : (l.map Prod.fst).Nodup
  exact : ∀ s t r, ((s, t), r) ∈ l ↔ M s t = some r

/-- The rows of graph pairs, given an order of their alignments. -/
def rowsOf (verbose : Bool) (ps : List Pair) (ls : List (List ((String × String) × String))) : List (List (Option Text)) :=
  (ps.zip ls).flatMap fun x => x.2.map fun a => row verbose x.1 a.1.1 a.1.2 a.2

private theorem pairs_eq {d : Text} (hd : ∀ c ∈ d, c.toNat < 128) (verbose : Bool) {ps : List Pair}
    {Ms : List (Alignment String String)} (h : List.Forall₂ (fun p M => GraphPair.Shows p.align M) ps Ms) :
    ∃ ls, List.Forall₂ Lists Ms ls ∧ extractPairs d verbose ps = outcome d (rowsOf verbose ps ls) := by
  induction h with
  | nil => exact ⟨[], .nil, (outcome_nil d).symm⟩
  | @cons p M ps Ms hp _ ih =>
    obtain ⟨ls, h1, h2⟩ := ih
    obtain ⟨l, e1, e2, _, e4⟩ := hp.all
    refine ⟨l :: ls, .cons ⟨e2, e4⟩ h1, ?_⟩
    rw [extractPairs, h2, extractPair, e1]
    dsimp only
    rw [printAll_eq hd, ← outcome_append]
    rfl

/-- The corpora in turn, their graph pairs in turn, and for each graph pair every alignment once, as a line with its
columns, until an alignment lacks a column; then, and only then, the run ends with a TypeError. -/
theorem extracted (d : Text) (hd : ∀ c ∈ d, c.toNat < 128) (verbose : Bool) (corpora : List (List Pair))
    (Ms : List (Alignment String String))
    (h : List.Forall₂ (fun p M => GraphPair.Shows p.align M) corpora.flatten Ms) :
    ∃ ls, List.Forall₂ Lists Ms ls ∧
      main d verbose (corpora.map .ok) =
        (table d (texts ((rowsOf verbose corpora.flatten ls).takeWhile fun r => decide (Full r))),
         if ∀ r ∈ rowsOf verbose corpora.flatten ls, Full r then none else some .typeError) := by
  obtain ⟨ls, h1, h2⟩ := pairs_eq hd verbose h
  exact ⟨ls, h1, by rw [main_ok, h2]; rfl⟩

/-- If all aligned nodes have tokens (and, with `verbose`, all graphs an id and all banks a path), then the run succeeds and
prints all alignments. -/
theorem complete (d : Text) (hd : ∀ c ∈ d, c.toNat < 128) (verbose : Bool) (corpora : List (List Pair))
    (Ms : List (Alignment String String))
    (h : List.Forall₂ (fun p M => GraphPair.Shows p.align M ∧
      (∀ s t, (M s t).isSome → (phrase p.source s).isSome ∧ (phrase p.target t).isSome) ∧
      (verbose → p.sourceBank.isSome ∧ p.targetBank.isSome ∧ p.sourceId.isSome ∧ p.targetId.isSome)) corpora.flatten Ms) :
    ∃ ls, List.Forall₂ Lists Ms ls ∧
      main d verbose (corpora.map .ok) = (table d (texts (rowsOf verbose corpora.flatten ls)), none) := by
  obtain ⟨ls, h1, h2⟩ := extracted d hd verbose corpora Ms (h.imp fun _ _ x => x.1)
  refine ⟨ls, h1, ?_⟩
  have full : ∀ r ∈ rowsOf verbose corpora.flatten ls, Full r := by
    clear h2
    generalize corpora.flatten = ps at h
    induction h generalizing ls with
    | nil => simp [rowsOf]
    | @cons p M ps Ms hp _ ih =>
      cases h1 with
      | @cons _ l _ ls hl hls =>
        intro r hr
        rw [rowsOf, List.zip_cons_cons, List.flatMap_cons, List.mem_append] at hr
        rcases hr with hr | hr
        · obtain ⟨⟨⟨s, t⟩, r'⟩, ha, rfl⟩ := List.mem_map.mp hr
          have hM := (hl.exact s t r').mp ha
          obtain ⟨hs, ht⟩ := hp.2.1 s t (by rw [hM]; rfl)
          intro c hc
          have hv := hp.2.2
          cases verbose with
          | false =>
            simp only [row, Bool.false_eq_true, if_false, List.nil_append, List.mem_cons, List.not_mem_nil, or_false] at hc
            rcases hc with rfl | rfl | rfl
            · exact hs
            · rfl
            · exact ht
          | true =>
            obtain ⟨v1, v2, v3, v4⟩ := hv rfl
            simp only [row, if_true, List.cons_append, List.nil_append, List.mem_cons, List.not_mem_nil, or_false] at hc
            rcases hc with rfl | rfl | rfl | rfl | rfl | rfl | rfl | rfl | rfl <;> first | assumption | rfl
        · exact ih _ hls r hr
  rw [h2, if_pos full, takeWhile_self full]

/-- The printed text determines the table, if the columns contain neither a newline nor the first character of the
delimiter. -/
theorem table_injective (c : Char) (d : Text) (hd : '\n' ∉ c :: d) (rows rows' : List (List Text))
    (h : ∀ r ∈ rows, r ≠ [] ∧ ∀ x ∈ r, c ∉ x ∧ '\n' ∉ x) (h' : ∀ r ∈ rows', r ≠ [] ∧ ∀ x ∈ r, c ∉ x ∧ '\n' ∉ x)
    (e : table (c :: d) rows = table (c :: d) rows') : rows = rows' := by
  induction rows generalizing rows' with
  | nil =>
    cases rows' with
    | nil => rfl
    | cons r rs => rw [table_cons] at e; simp [table] at e
  | cons r rs ih =>
    cases rows' with
    | nil => rw [table_cons] at e; simp [table] at e
    | cons r' rs' =>
      rw [table_cons, table_cons] at e
      have a := h r (by simp)
      have a' := h' r' (by simp)
      obtain ⟨e1, e2⟩ := cut (not_mem_intercalate hd fun x hx => (a.2 x hx).2) (not_mem_intercalate hd fun x hx => (a'.2 x hx).2) e
      rw [intercalate_inj a.1 a'.1 (fun x hx => (a.2 x hx).1) (fun x hx => (a'.2 x hx).1) e1,
        ih rs' (fun r hr => h r (List.mem_cons_of_mem _ hr)) (fun r hr => h' r (List.mem_cons_of_mem _ hr)) e2]

/-- With a delimiter of one character, cutting the text at newlines and the lines at the delimiter gives the columns. -/
theorem read_back (c : Char) (hc : c ≠ '\n') (rows : List (List Text))
    (h : ∀ r ∈ rows, r ≠ [] ∧ ∀ x ∈ r, c ∉ x ∧ '\n' ∉ x) :
    ((table [c] rows).splitOn '\n').dropLast.map (fun l => l.splitOn c) = rows := by
  have key : ∀ rows : List (List Text), (∀ r ∈ rows, r ≠ [] ∧ ∀ x ∈ r, c ∉ x ∧ '\n' ∉ x) →
      (table [c] rows).splitOn '\n' = rows.map (fun r => [c].intercalate r) ++ [[]] := by
    intro rows h
    induction rows with
    | nil => simp [table]
    | cons r rs ih =>
      rw [table_cons, List.splitOn_append_cons_self_of_not_mem
        (not_mem_intercalate (by simpa using hc.symm) fun x hx => ((h r (by simp)).2 x hx).2),
        ih fun r hr => h r (List.mem_cons_of_mem _ hr)]
      rfl
  rw [key rows h, List.dropLast_concat, List.map_map]
  have : ∀ r ∈ rows, ((fun l : Text => l.splitOn c) ∘ fun r => [c].intercalate r) r = r := fun r hr =>
    List.splitOn_intercalate c (fun x hx => ((h r hr).2 x hx).1) (h r hr).1
  rw [List.map_congr_left this, List.map_id']

/-- A delimiter in a phrase goes unnoticed. -/
theorem delimiter_in_phrase : table ['\t'] [["a\tb".toList, "equals".toList, "c".toList]] =
    table ['\t'] [["a".toList, "b\tequals".toList, "c".toList]] := by decide

/-- A file that cannot be read ends the run; the lines of the files before it have been printed. -/
theorem unreadable (d : Text) (verbose : Bool) (fs gs : List (Py (List Pair))) (e : Err) :
    main d verbose (fs ++ .error e :: gs) =
      ((main d verbose fs).1, some ((main d verbose fs).2.getD e)) := by
  rw [main_append, main, extract]
  rcases main d verbose fs with ⟨a, _ | e'⟩ <;> simp [andThen]

/-- With a delimiter that is not ASCII nothing is printed, and the run succeeds only if there is nothing to print. -/
theorem not_ascii (d : Text) (hd : ∃ c ∈ d, 128 ≤ c.toNat) (verbose : Bool) (corpora : List (List Pair))
    (Ms : List (Alignment String String))
    (h : List.Forall₂ (fun p M => GraphPair.Shows p.align M) corpora.flatten Ms) :
    (main d verbose (corpora.map .ok)).1 = [] ∧
      ((main d verbose (corpora.map .ok)).2 = none ↔ ∀ M ∈ Ms, ∀ s t, M s t = none) := by
  rw [main_ok]
  generalize corpora.flatten = ps at h ⊢
  have bad : ∀ cs, ∃ e, line d cs = .error e := by
    intro cs
    have h2 : ¬ (d.all fun c => decide (c.toNat < 128)) = true := by
      rw [List.all_eq_true]; obtain ⟨c, h1, h2⟩ := hd
      intro g; have := g c h1; simp at this; omega
    unfold line
    split
    · exact ⟨_, rfl⟩
    · exact ⟨_, rfl⟩
  induction h with
  | nil => simp [extractPairs]
  | @cons p M ps Ms hp _ ih =>
    obtain ⟨l, e1, e2, _, e4⟩ := hp.all
    rw [extractPairs, extractPair, e1]
    dsimp only
    cases l with
    | nil =>
      rw [printAll]
      have : ∀ s t, M s t = none := by
        intro s t
        rcases hm : M s t with _ | r
        · rfl
        · exact absurd ((e4 s t r).mpr hm) (by simp)
      simp only [andThen, List.nil_append, List.forall_mem_cons]
      exact ⟨ih.1, by rw [ih.2]; simp [this]⟩
    | cons x l =>
      obtain ⟨e, he⟩ := bad (columns verbose p x)
      have hx := (e4 x.1.1 x.1.2 x.2).mp (by simp)
      rw [printAll, he]
      simp only [andThen, List.forall_mem_cons, true_and]
      simp only [reduceCtorEq, false_iff, not_and]
      intro g
      rw [g] at hx; cases hx

/-! ### A case that meets the hypotheses -/

private def graph (l : List (String × Option (List String))) : DaesoGraph.DG String :=
  ⟨{ Graph.empty with
      node := l.zipIdx.map fun x => (x.1.1, x.2)
      nheap := fun i => [("tokens", match (l[i]?.bind fun x => x.2) with | none => .none | some ts => .toks ts)] },
    none, none⟩

private def align (ops : List (GraphPair.Op String String)) : Graph.G String String :=
  match GraphPair.run false Graph.empty ops with
  | .ok x => x.1
  | .error _ => Graph.empty

private def sample : Pair :=
  ⟨graph [("1", some ["the", "cat"]), ("2", some ["cat"])], graph [("3", some ["a", "cat"]), ("4", none)],
    some "s".toList, some "t".toList, some "x.xml".toList, some "y.xml".toList, align [.add "1" "3" "equals", .add "2" "4" "restates"]⟩

private def sample' : Pair := { sample with align := align [.add "1" "3" "equals", .add "2" "3" "restates"] }

example : main ['\t'] false [.ok [sample']] = ("the cat\tequals\ta cat\ncat\trestates\ta cat\n".toList, none) := by decide +kernel
example : main ['\t'] false [.ok [sample', sample], .ok [sample']] =
    ("the cat\tequals\ta cat\ncat\trestates\ta cat\nthe cat\tequals\ta cat\n".toList, some .typeError) := by decide +kernel
example : main " | ".toList true [.ok [sample']] =
    ("x.xml | y.xml | s | t | 1 | 3 | the cat | equals | a cat\nx.xml | y.xml | s | t | 2 | 3 | cat | restates | a cat\n".toList,
      none) := by decide +kernel

/-- The sample meets the hypotheses of `complete`. -/
example : ∃ M, GraphPair.Shows sample'.align M ∧ M "1" "3" = some "equals" ∧
    ∀ s t, (M s t).isSome → (phrase sample'.source s).isSome ∧ (phrase sample'.target t).isSome := by
  obtain ⟨g, e, h⟩ := GraphPair.mapping_refines (κ := String) (ρ := String) [.add "1" "3" "equals", .add "2" "3" "restates"]
  have : sample'.align = g := by
    have e' : sample'.align = align [.add "1" "3" "equals", .add "2" "3" "restates"] := rfl
    rw [e', align, e]
  refine ⟨_, this ▸ h, by decide +kernel, ?_⟩
  intro s t hst
  have : (s = "1" ∨ s = "2") ∧ t = "3" := by
    simp only [GraphPair.runSpec, GraphPair.meantMapping] at hst
    by_cases h1 : s = "1" <;> by_cases h2 : s = "2" <;> by_cases h3 : t = "3" <;>
      simp_all [Alignment.none, Alignment.put]
  obtain ⟨rfl | rfl, rfl⟩ := this <;> decide +kernel

end Verif.Props.Phrases
