import Verif.Lemmas.EvalPrint
import Verif.Props.Agreement

/-! Property C76 (lib/daeso/pgc/evaluate.py, lib/daeso/pgc/agreement.py): printed evaluations. -/
namespace Verif.Props.EvalPrint
open Verif Verif.Spec Verif.Etree Verif.AlignEval Verif.AlignPrint Verif.EvalPrint Verif.Spec.AlignPrint Verif.Spec.EvalPrint
open Verif.Props.AlignEval

/-- C76.  Without names no table is printed, and of an evaluation only the first title: ValueError. -/
theorem no_names (sqrt : ℚ → ℚ) (percent : Bool) (title : Text) (counts : List Counts) (ts : TableStats) (e : Eval) (s : EvalStats)
    (h1 : (e.tables.get? anyRel).isSome) (h2 : (s.tables.get? anyRel).isSome) :
    writeTable sqrt percent title [] counts ts = ([], some .valueError) ∧
    ∃ t, writeEval sqrt [] e s = (t, some .valueError) ∧ Document (heading "Alignment only (regardlless of relation)") t := by
  refine ⟨rfl, _, ?_, doc_header "Alignment only (regardlless of relation)"⟩
  obtain ⟨x, hx⟩ := Option.isSome_iff_exists.1 h1
  obtain ⟨y, hy⟩ := Option.isSome_iff_exists.1 h2
  unfold writeEval writeOnly writeRelation
  rw [hx, hy]
  simp [writeTable, namespaceOf, Out.andThen]

/-- C76.  A printed table: a row for each corpus pair with its name and counts, the statistics of the counts, a row for
each corpus pair with its name and measures in percent, and the statistics of the measures.  The column of the names is
as wide as needed for names that are strings. -/
theorem table_printed (sqrt : ℚ → ℚ) (title : Text) {names : List Name} (h : names ≠ []) (counts : List Counts) (s : TableStats) :
    ∃ a t, 14 ≤ a ∧ (∀ n ∈ names, n.len + 4 ≤ a) ∧ (a = 14 ∨ ∃ n ∈ names, a = n.len + 4) ∧
      writeTable sqrt true title names counts s = (t, none) ∧
      Document (tableDoc sqrt a title (names.map Name.text) counts s) t := by
  obtain ⟨a, e, h1, h2, h3⟩ := namespaceOf_ok h
  obtain ⟨t, e2, hd⟩ := writeTable_doc sqrt title e counts s
  exact ⟨a, t, h1, h2, h3, e2, hd⟩

/-- The counts of each relation, and regardless of relations. -/
noncomputable def countsOf (ms : List Meant) (r : String) : List Counts :=
  if r = anyRel then ms.map meantAny else ms.map (meantCounts r)

private theorem tables_length {relations : List String} (hp : Proper relations) (hn : relations.Nodup)
    {d : AD String (List Counts)} (h : ∀ r ∈ relations, ∃ x, d.get? r = some x) : relations.length ≤ d.length := by
  have hsub : relations ⊆ d.map Prod.fst := by
    intro r hr
    obtain ⟨x, hx⟩ := h r hr
    exact List.mem_map.2 ⟨(r, x), AD.mem_of_get? hx, rfl⟩
  have := (List.Nodup.subperm hn hsub).length_le
  simpa using this

/-- C76.  After any history of at least one pair of corpora with known relations, `run_eval` and `write` print for each
relation, and regardless of relations, the true, predicted and common alignments of each corpus pair, the measures of these
counts in percent, and their statistics, and at the end the summary of the relations. -/
theorem evaluation_printed (sqrt : ℚ → ℚ) {relations : List String} (hp : Proper relations) (hn : relations.Nodup)
    (h0 : relations ≠ []) {calls : List Call} {ms : List Meant} (h : List.Forall₂ Shown calls ms)
    (hw : ∀ m ∈ ms, Within relations m) (hc : calls ≠ []) {names : List Name} (hns : names ≠ []) :
    ∃ e s stats a t, history relations calls = .ok e ∧ runEval e = .ok s ∧
      (∀ r, r = anyRel ∨ r ∈ relations → evalTable (countsOf ms r) = .ok (stats r)) ∧
      14 ≤ a ∧ (∀ n ∈ names, n.len + 4 ≤ a) ∧ (a = 14 ∨ ∃ n ∈ names, a = n.len + 4) ∧ writeEval sqrt names e s = (t, none) ∧
      Document (evalDoc sqrt a (names.map Name.text) relations (countsOf ms) stats s) t := by
  obtain ⟨e, h1, h2, -, h4, h5, -⟩ := counts_are_cardinalities hp h hw
  obtain ⟨e', s, g1, g2, g3, ⟨ta, g4, g4'⟩, -⟩ := overall hp hn h0 h hw hc
  obtain rfl := Except.ok.inj (h1.symm.trans g1)
  have hany : ∀ r ∈ relations, r ≠ anyRel := fun r hr e => hp.1 (e ▸ hr)
  have hcounts : ∀ r, r = anyRel ∨ r ∈ relations → e.tables.get? r = some (countsOf ms r) := by
    intro r hr
    unfold countsOf
    by_cases hra : r = anyRel
    · rw [if_pos hra, hra]; exact h5
    · rw [if_neg hra]; exact h4 r (hr.resolve_left hra)
  have hstats : ∀ r, ∃ ts, r = anyRel ∨ r ∈ relations → s.tables.get? r = some ts ∧ evalTable (countsOf ms r) = .ok ts := by
    intro r
    unfold countsOf
    by_cases hra : r = anyRel
    · subst hra
      exact ⟨ta, fun _ => ⟨g4, by rw [if_pos rfl]; exact g4'⟩⟩
    · by_cases hr : r ∈ relations
      · obtain ⟨t, t1, t2⟩ := g3 r hr
        exact ⟨t, fun _ => ⟨t1, by rw [if_neg hra]; exact t2⟩⟩
      · exact ⟨ta, fun hh => absurd hh (by simp [hra, hr])⟩
  choose stats hstats using hstats
  obtain ⟨a, ea, ha1, ha2, ha3⟩ := namespaceOf_ok hns
  obtain ⟨t, et, hd⟩ := writeEval_doc sqrt ea (e := e) (s := s) (counts := countsOf ms) (stats := stats)
    (fun r hr => by rw [h2] at hr; exact ⟨hcounts r hr, (hstats r hr).1⟩)
    (by rw [h2]; exact tables_length hp hn fun r hr => ⟨_, hcounts r (Or.inr hr)⟩)
  rw [h2] at hd
  exact ⟨e, s, stats, a, t, h1, g2, fun r hr => (hstats r hr).2, ha1, ha2, ha3, et, hd⟩

/-- C76.  The words of a row of counts are those of its name and the three counts. -/
theorem counts_readable {ws : Char → Bool} (hs : Space ws) {a : Nat} {label l : Text} {c : Count → Nat}
    (hc : ∀ k, c k < 10 ^ 13) (h : (counts3 a label c).Shows l) :
    DaesoGraph.splitWs ws l = DaesoGraph.splitWs ws label ++ [decimal (c .true), decimal (c .pred), decimal (c .common)] := by
  obtain ⟨s, t, u, rfl, rfl, rfl, e⟩ := row3_words hs (by
    intro f hf t ht
    simp only [List.mem_cons, List.not_mem_nil, or_false] at hf
    rcases hf with rfl | rfl | rfl <;> · obtain rfl : t = _ := ht; exact decimal_field hs (hc _)) h
  exact e

/-- C76.  The words of a row of measures are those of its name and the three percentages. -/
theorem percents_readable {ws : Char → Bool} (hs : Space ws) {a : Nat} {label l : Text} {q : Measure → ℚ}
    (hq : ∀ m, |q m| ≤ 10 ^ 6) (h : (percents3 a label q).Shows l) : ∃ s t u, Decimals 2 (q .prec * 100) s ∧
    Decimals 2 (q .recall * 100) t ∧ Decimals 2 (q .f * 100) u ∧
    DaesoGraph.splitWs ws l = DaesoGraph.splitWs ws label ++ [s, t, u] := by
  have key : ∀ m, |q m * 100| ≤ 10 ^ 8 := fun m => by
    rw [abs_mul, abs_of_pos (by norm_num : (0 : ℚ) < 100)]
    linarith [hq m]
  exact row3_words hs (by
    intro f hf t ht
    simp only [List.mem_cons, List.not_mem_nil, or_false] at hf
    rcases hf with rfl | rfl | rfl <;> exact decimals_field hs (key _) ht) h

/-- C76.  Two numbers printed with the same text differ by at most one unit of the last decimal. -/
theorem decimals_close {k : Nat} {q q' : ℚ} {t : Text} (h : Decimals k q t) (h' : Decimals k q' t) : |q - q'| ≤ 1 / 10 ^ k :=
  decimals_inj h h'

/-- C76.  An agreement table is printed with the annotators in the order of `labels`: the scores of each against the
others, and below the means and standard deviations of the columns and of all scores. -/
theorem matrix_printed (sqrt : ℚ → ℚ) (percent : Bool) (title : Text) {annotators labels : List String}
    {v : String → String → ℚ} {d : Agreement.Table} (h : Agreement.IsTable annotators v d) (hl : labels ⊆ annotators) :
    ∃ t, writeMatrix sqrt percent title labels d = (t, none) ∧
      Document (matrixDoc sqrt percent title labels v (fun p => meanOf (column annotators v p))
        (fun p => varOf (column annotators v p) (meanOf (column annotators v p)))
        (meanOf (offDiagonal annotators v))
        (varOf (offDiagonal annotators v) (meanOf (offDiagonal annotators v)))) t :=
  writeMatrix_doc sqrt percent title (fun r hr c hc hrc => h.cells r (hl hr) c (hl hc) hrc) (fun c hc => h.means c (hl hc))
    (fun c hc => h.variances c (hl hc)) h.mean h.variance

private theorem andThen_error {a b : Out} {e : Err} (ha : a.2 = none ∨ a.2 = some e) (hb : a.2 = some e ∨ b.2 = some e) :
    (Out.andThen a b).2 = some e := by
  obtain ⟨t, o⟩ := a
  cases o with
  | none => simpa [Out.andThen] using hb
  | some e' => simpa [Out.andThen] using ha

private theorem andThen_cases {a b : Out} {e : Err} (ha : a.2 = none ∨ a.2 = some e) (hb : b.2 = none ∨ b.2 = some e) :
    (Out.andThen a b).2 = none ∨ (Out.andThen a b).2 = some e := by
  obtain ⟨t, o⟩ := a
  cases o with
  | none => simpa [Out.andThen] using hb
  | some e' => simpa [Out.andThen] using ha

private theorem writeAll_cases {ι : Type} {f : ι → Out} {e : Err} {l : List ι} (h : ∀ i ∈ l, (f i).2 = none ∨ (f i).2 = some e) :
    (writeAll f l).2 = none ∨ (writeAll f l).2 = some e := by
  induction l with
  | nil => exact Or.inl rfl
  | cons i l ih => exact andThen_cases (h i (by simp)) (ih fun j hj => h j (by simp [hj]))

private theorem cell_error {d : Agreement.Table} {r c : String} {e : Err} (h : Verif.Agreement.cell d r c = .error e) : e = .keyError := by
  unfold Verif.Agreement.cell at h
  simp only [bind, Except.bind, AD.get] at h
  rcases h1 : AD.get? d r with _ | x
  · rw [h1] at h; simp at h; exact h.symm
  · rw [h1] at h
    dsimp only at h
    rcases h2 : AD.get? x c with _ | y
    · rw [h2] at h; simp at h; exact h.symm
    · rw [h2] at h; simp at h

private theorem matrixCell_cases (percent : Bool) (f : ℚ → ℚ) (d : Agreement.Table) (r c : String) :
    (matrixCell percent f d r c).2 = none ∨ (matrixCell percent f d r c).2 = some .keyError := by
  unfold matrixCell
  rcases h : Verif.Agreement.cell d r c with e | q
  · rw [cell_error h]; exact Or.inr rfl
  · exact Or.inl rfl

/-- C76.  A table with a missing score is not printed to the end: KeyError. -/
theorem matrix_missing (sqrt : ℚ → ℚ) (percent : Bool) (title : Text) {labels : List String} {d : Agreement.Table}
    (h : ∃ r ∈ labels, ∃ c ∈ labels, r ≠ c ∧ Verif.Agreement.cell d r c = .error .keyError) :
    (writeMatrix sqrt percent title labels d).2 = some .keyError := by
  obtain ⟨r, hr, c, hc, hrc, hcell⟩ := h
  have hcases : ∀ r c, ((fun col => if r ≠ col then matrixCell percent id d r col else (spaces 12, none)) c).2 = none ∨
      ((fun col => if r ≠ col then matrixCell percent id d r col else (spaces 12, none)) c).2 = some .keyError := by
    intro r c
    dsimp only
    split
    · exact matrixCell_cases percent id d r c
    · exact Or.inl rfl
  have hline : ∀ r, (annotatorLine percent labels d r).2 = none ∨ (annotatorLine percent labels d r).2 = some .keyError :=
    fun r => andThen_cases (Or.inl rfl) (andThen_cases (writeAll_cases fun c _ => hcases r c) (Or.inl rfl))
  have hbad : (annotatorLine percent labels d r).2 = some .keyError := by
    refine andThen_error (Or.inl rfl) (Or.inr (andThen_error (writeAll_cases fun c _ => hcases r c) (Or.inl ?_)))
    refine writeAll_error (fun c _ => hcases r c) ⟨c, hc, ?_⟩
    rw [if_pos hrc]
    unfold matrixCell
    rw [hcell]
  exact andThen_error (Or.inl rfl) (Or.inr (andThen_error (writeAll_cases fun r _ => hline r)
    (Or.inl (writeAll_error (fun r _ => hline r) ⟨r, hr, hbad⟩))))

/-- C76.  Agreement of at least two annotators is printed as the evaluation of all ordered pairs of different annotators,
with the annotators as names, and then, in the order of `rels` and `ks`, as tables of the scores of the column annotator as
prediction of the row annotator, with the annotators in alphabetical order. -/
theorem agreement_printed (sqrt : ℚ → ℚ) (repr : Text → Text) {relations annotators : List String}
    {corpus : String → List (Graph.G String String)} {A : String → List (Alignment String String)} (hp : Proper relations)
    (hr : relations.Nodup) (h0 : relations ≠ []) (h : Agreement.Annotated relations annotators corpus A)
    (h2 : 2 ≤ annotators.length) (hu : "mean" ∉ annotators ∧ "SD" ∉ annotators ∧ "overall" ∉ annotators)
    {rels : List String} (hrels : ∀ r ∈ rels, r = anyRel ∨ r ∈ relations) (ks : List Measure) :
    ∃ names e s, Verif.Agreement.crossEvaluate relations (annotators.map corpus) (some annotators) = .ok (names, e, s) ∧
      (∀ t p, (t, p) ∈ names ↔ t ∈ annotators ∧ p ∈ annotators ∧ t ≠ p) ∧
      (∃ stats t, (∀ r, r = anyRel ∨ r ∈ relations →
          evalTable (countsOf (names.map fun x => (A x.1).zip (A x.2)) r) = .ok (stats r)) ∧
        writeEval sqrt (names.map fun x => .ofPair repr (x.1.toList, x.2.toList)) e s = (t, none) ∧
        Document (evalDoc sqrt 14 (names.map fun x => "(".toList ++ repr x.1.toList ++ ", ".toList ++ repr x.2.toList ++ ")".toList)
          relations (countsOf (names.map fun x => (A x.1).zip (A x.2))) stats s) t) ∧
      ∃ (labels : List String) (tables : String → Measure → Agreement.Table) (t : Text), labels = Verif.Agreement.labelsOf names ∧
        labels.Perm annotators ∧ labels.Pairwise (· ≤ ·) ∧
        (∀ r ∈ rels, ∃ ts, s.tables.get? r = some ts ∧ ∀ k, Verif.Agreement.tableize names ts.rows k = .ok (tables r k)) ∧
        writeTables sqrt labels (rels.map fun r => (r, ks.map fun k => (k, tables r k))) = (t, none) ∧
        Document (agreementDoc sqrt annotators labels rels ks fun r k t p =>
          Agreement.scores (if r = anyRel then meantAny ((A t).zip (A p)) else meantCounts r ((A t).zip (A p))) k) t := by
  obtain ⟨names, e, s, c1, c2, c3, c4, ⟨ta, c5, c5'⟩, c6, c7, c8, c9⟩ := Agreement.cross_evaluation hp hr h0 h h2 hu
  have hne : names ≠ [] := by
    intro hn
    subst hn
    match annotators, h2, h.nodup with
    | a :: b :: l, _, hnd =>
      have := (c3 a b).2 ⟨by simp, by simp, fun e => by simp [e] at hnd⟩
      simp at this
  refine ⟨names, e, s, c1, c3, ?_, ?_⟩
  · obtain ⟨e', s', stats, a, t, d1, d2, d3, d4, -, d6, d7, d8⟩ := evaluation_printed sqrt hp hr h0 c8 c9 (by simpa using hne)
      (names := names.map fun x => Name.ofPair repr (x.1.toList, x.2.toList)) (by simpa using hne)
    obtain rfl := Except.ok.inj (c6.symm.trans d1)
    obtain rfl := Except.ok.inj (c7.symm.trans d2)
    have ha : a = 14 := by
      rcases d6 with rfl | ⟨n, hn, rfl⟩
      · rfl
      · obtain ⟨x, -, rfl⟩ := List.mem_map.1 hn
        have : (Name.ofPair repr (x.1.toList, x.2.toList)).len = 2 := rfl
        omega
    subst ha
    refine ⟨stats, t, d3, d7, ?_⟩
    rw [List.map_map] at d8
    exact d8
  · have hperm := Verif.Agreement.labelsOf_perm h.nodup h2 c3
    have htab : ∀ r, ∃ tab : Measure → Agreement.Table, r ∈ rels → (∃ ts, s.tables.get? r = some ts ∧
        ∀ k, Verif.Agreement.tableize names ts.rows k = .ok (tab k)) ∧ ∀ k, Agreement.IsTable annotators (fun t p =>
          Agreement.scores (if r = anyRel then meantAny ((A t).zip (A p)) else meantCounts r ((A t).zip (A p))) k) (tab k) := by
      intro r
      by_cases hra : r = anyRel
      · choose tab ht using c5'
        refine ⟨tab, fun _ => ⟨⟨ta, by rw [hra]; exact c5, fun k => (ht k).1⟩, fun k => ?_⟩⟩
        simp only [hra, if_true]
        exact (ht k).2
      · by_cases hrr : r ∈ relations
        · obtain ⟨ts, g1, g2⟩ := c4 r hrr
          choose tab ht using g2
          refine ⟨tab, fun _ => ⟨⟨ts, g1, fun k => (ht k).1⟩, fun k => ?_⟩⟩
          simp only [hra, if_false]
          exact (ht k).2
        · exact ⟨fun _ => [], fun hx => by rcases hrels r hx with h | h; exacts [absurd h hra, absurd h hrr]⟩
    choose tables ht using htab
    have hdoc : ∃ t, writeTables sqrt (Verif.Agreement.labelsOf names) (rels.map fun r => (r, ks.map fun k => (k, tables r k))) = (t, none) ∧
        Document (agreementDoc sqrt annotators (Verif.Agreement.labelsOf names) rels ks fun r k t p =>
          Agreement.scores (if r = anyRel then meantAny ((A t).zip (A p)) else meantCounts r ((A t).zip (A p))) k) t := by
      unfold writeTables agreementDoc
      have hmap : ∀ {ι κ : Type} (f : κ → Out) (g : ι → κ) (l : List ι), writeAll f (l.map g) = writeAll (fun i => f (g i)) l := by
        intro ι κ f g l
        induction l with
        | nil => rfl
        | cons i l ih => rw [List.map_cons, writeAll, writeAll, ih]
      rw [hmap]
      refine writeAll_doc fun r hr => andThen_doc ⟨_, ?_, doc_header ("Agreement on relation " ++ r)⟩ ?_
      · unfold header
        rw [String.toList_append]
        simp only [List.append_assoc]
        rfl
      · rw [hmap]
        refine writeAll_doc fun k hk => ?_
        obtain ⟨t, e1, e2⟩ := matrix_printed sqrt true (measureName k) ((ht r hr).2 k) (labels := Verif.Agreement.labelsOf names)
          fun x hx => hperm.mem_iff.1 hx
        refine ⟨t, e1, ?_⟩
        cases k <;> exact e2
    obtain ⟨t, e1, e2⟩ := hdoc
    exact ⟨_, tables, t, rfl, hperm, List.pairwise_insertionSort _ _, fun r hr => (ht r hr).1, e1, e2⟩

/-! ### A case -/

private def sampleCounts : Counts
  | .true => 4
  | .pred => 3
  | .common => 2

private def sampleStats : TableStats :=
  ⟨[fun | .prec => 2/3 | .recall => 1/2 | .f => 4/7], sampleCounts, fun c => sampleCounts c, fun _ => 0,
    fun | .prec => 2/3 | .recall => 1/2 | .f => 4/7, fun _ => 0, fun | .prec => 2/3 | .recall => 1/2 | .f => 4/7, fun _ => 0⟩

/-- A table is printed. -/
example : ((writeTable id true "EQUALS".toList [.ofText "part1".toList] [sampleCounts] sampleStats).1.take 236) =
    "EQUALS\n\nName:                  True:         Pred:       Common:\n--------------------------------------------------------\npart1                      4             3             2\n--------------------------------------------------------\n".toList := by
  decide +kernel

/-- Two thirds in percent. -/
example : showMeasure true (2/3) = "66.67".toList ∧ showPlaces 4 (-1/3) = "-0.3333".toList ∧ showPlaces 2 (1/200) = "0.00".toList := by
  decide +kernel

/-- White space as in the C locale. -/
example : Space fun c => c = ' ' ∨ c = '\n' ∨ c = '\t' := by
  refine ⟨by decide, fun c hc => ?_, by decide, by decide⟩
  simp only [Bool.decide_or, Bool.or_eq_false_iff, decide_eq_false_iff_not]
  refine ⟨?_, ?_, ?_⟩ <;> rintro rfl <;> simp at hc

end Verif.Props.EvalPrint
