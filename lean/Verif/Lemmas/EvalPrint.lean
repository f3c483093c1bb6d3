import Verif.Lemmas.AlignPrint
import Verif.Spec.EvalPrint
import Verif.Model.EvalPrint

/-! Layout of printed evaluations (C76). -/
set_option linter.unusedSectionVars false
namespace Verif.EvalPrint
open Verif Verif.Etree Verif.StatsTable Verif.AlignPrint Verif.AlignEval Verif.Spec.AlignPrint Verif.Spec.EvalPrint

/-! ### Numbers -/

theorem pad_toDigits : ∀ (k m : Nat), 0 < k → m < 10 ^ k →
    Nat.toDigits 10 (10 ^ k + m) = '1' :: (List.replicate (k - (Nat.toDigits 10 m).length) '0' ++ Nat.toDigits 10 m)
  | 0, _, h, _ => absurd h (by decide)
  | 1, m, _, h => by
    have : m < 10 := by simpa using h
    rw [Nat.toDigits_of_base_le (by decide) (by omega)]
    have h1 : (10 ^ 1 + m) / 10 = 1 := by omega
    have h2 : (10 ^ 1 + m) % 10 = m := by omega
    rw [h1, h2, Nat.toDigits_of_lt_base (n := 1) (by decide), Nat.toDigits_of_lt_base this]
    rfl
  | k + 2, m, _, h => by
    have e : 10 ^ (k + 2) = 10 * 10 ^ (k + 1) := by rw [Nat.pow_succ]; omega
    have hp : 0 < 10 ^ (k + 1) := Nat.pow_pos (by decide)
    have hm : m / 10 < 10 ^ (k + 1) := by omega
    rw [Nat.toDigits_of_base_le (by decide) (by omega)]
    have h1 : (10 ^ (k + 2) + m) / 10 = 10 ^ (k + 1) + m / 10 := by omega
    have h2 : (10 ^ (k + 2) + m) % 10 = m % 10 := by omega
    rw [h1, h2, pad_toDigits (k + 1) (m / 10) (by omega) hm]
    by_cases h10 : 10 ≤ m
    · rw [Nat.toDigits_of_base_le (n := m) (by decide) h10]
      simp only [List.length_append, List.length_cons, List.length_nil, List.cons_append, List.append_assoc]
      rw [Nat.add_sub_add_right (k + 1) 1]
    · have h0 : m / 10 = 0 := by omega
      have h3 : m % 10 = m := by omega
      rw [h0, h3, Nat.toDigits_of_lt_base (n := 0) (by decide), Nat.toDigits_of_lt_base (n := m) (by omega)]
      simp only [List.length_cons, List.length_nil, List.cons_append, List.append_assoc]
      congr 1
      show List.replicate (k + 1 - 1) '0' ++ (['0'] ++ _) = List.replicate (k + 2 - 1) '0' ++ _
      rw [← List.append_assoc]
      congr 1
      show List.replicate k '0' ++ ['0'] = List.replicate (k + 1) '0'
      exact List.replicate_succ'.symm

theorem decimal_eq (n : Nat) : decimal n = Nat.toDigits 10 n := by
  unfold decimal
  rw [Nat.toString_eq_ofList_toDigits]
  simp

theorem showPlaces_decimals {k : Nat} (hk : 0 < k) (q : ℚ) : Decimals k q (showPlaces k q) := by
  have hp : (0 : ℚ) < 10 ^ k := by positivity
  have hr := roundEven_spec (q := |q| * 10 ^ k) (by positivity)
  generalize hh : roundEven (|q| * 10 ^ k) = h at hr
  have e : |(|q| - (h : ℚ) / 10 ^ k)| = |(|q| * 10 ^ k - h)| / 10 ^ k := by
    rw [← abs_of_pos hp, ← abs_div, abs_of_pos hp]
    congr 1
    field_simp
  refine ⟨h, List.replicate (k - (Nat.toDigits 10 (h % 10 ^ k)).length) '0' ++ Nat.toDigits 10 (h % 10 ^ k), ?_, ?_, ?_, ?_⟩
  · rw [e, div_le_div_iff₀ hp (by positivity)]
    nlinarith [hr.1]
  · intro h'
    apply hr.2
    rw [e, div_eq_div_iff hp.ne' (by positivity)] at h'
    have : |(|q| * 10 ^ k - (h : ℚ))| * 2 * 10 ^ k = 1 * 10 ^ k := by linarith
    have := mul_right_cancel₀ hp.ne' this
    linarith
  · rw [decimal_eq]
    exact pad_toDigits k _ hk (Nat.mod_lt _ (Nat.pow_pos (by decide)))
  · unfold showPlaces
    dsimp only
    rw [hh, decimal_eq]

/-! ### Documents -/

theorem _root_.Verif.Spec.EvalPrint.Document.nil : Document [] [] := ⟨[], .nil, rfl⟩

theorem _root_.Verif.Spec.EvalPrint.Document.append {d1 d2 : List Desc} {t1 t2 : Text} (h1 : Document d1 t1) (h2 : Document d2 t2) :
    Document (d1 ++ d2) (t1 ++ t2) := by
  obtain ⟨l1, f1, rfl⟩ := h1
  obtain ⟨l2, f2, rfl⟩ := h2
  exact ⟨l1 ++ l2, List.rel_append f1 f2, by unfold ended; rw [List.map_append, List.flatten_append]⟩

theorem _root_.Verif.Spec.EvalPrint.Document.one {d : Desc} {l : Text} (h : d.Shows l) : Document [d] (l ++ ['\n']) :=
  ⟨[l], .cons h .nil, by unfold ended; simp⟩

theorem _root_.Verif.Spec.EvalPrint.Document.cons {d : Desc} {ds : List Desc} {l t : Text} (h : d.Shows l) (h2 : Document ds t) :
    Document (d :: ds) (l ++ ['\n'] ++ t) := (Document.one h).append h2

theorem _root_.Verif.Spec.EvalPrint.Document.flatten {ι : Type} {f : ι → List Desc} {g : ι → Text} {l : List ι}
    (h : ∀ i ∈ l, Document (f i) (g i)) : Document (l.map f).flatten (l.map g).flatten := by
  induction l with
  | nil => exact Document.nil
  | cons i l ih =>
    rw [List.map_cons, List.flatten_cons, List.map_cons, List.flatten_cons]
    exact (h i (by simp)).append (ih fun j hj => h j (by simp [hj]))

theorem _root_.Verif.Spec.EvalPrint.Document.rows {ι : Type} {f : ι → Desc} {g : ι → Text} {l : List ι} (h : ∀ i ∈ l, Document [f i] (g i)) :
    Document (l.map f) (l.map g).flatten := by
  have := Document.flatten (f := fun i => [f i]) h
  have e : (l.map fun i => [f i]).flatten = l.map f := by
    clear h this
    induction l with
    | nil => rfl
    | cons i l ih => simp [ih]
  rwa [e] at this

theorem doc_blanks : Document [.blank, .blank] "\n\n".toList := ⟨[[], []], .cons rfl (.cons rfl .nil), rfl⟩

theorem doc_rule (n : Nat) : Document [.rule '-' n] (separator n) := Document.one rfl

theorem doc_header (t : String) : Document (heading t) (header t.toList) := by
  refine ⟨[List.replicate 80 '=', t.toList, List.replicate 80 '=', []], .cons rfl (.cons rfl (.cons rfl (.cons rfl .nil))), ?_⟩
  unfold header ended
  simp only [List.map_cons, List.flatten_cons, List.map_nil, List.flatten_nil, List.append_nil, List.append_assoc]
  rfl

theorem doc_row3 {a : Nat} {label : Text} {x y z : Field} {s t u : Text} (hx : x.Shows s) (hy : y.Shows t) (hz : z.Shows u) :
    Document [row3 a label x y z] (line a 14 label [s, t, u]) := by
  unfold line
  refine Document.one ⟨[ljust a label, rjust 14 s, rjust 14 t, rjust 14 u], ?_, ?_⟩
  · exact .cons ⟨label, rfl, rfl⟩ (.cons ⟨s, hx, rfl⟩ (.cons ⟨t, hy, rfl⟩ (.cons ⟨u, hz, rfl⟩ .nil)))
  · simp

theorem doc_counts (a : Nat) (label : Text) (c : Count → Nat) :
    Document [counts3 a label c] (line a 14 label (countKeys.map fun k => str (c k))) :=
  doc_row3 (str_decimal _) (str_decimal _) (str_decimal _)

theorem doc_numbers (a : Nat) (label : Text) (q : Count → ℚ) :
    Document [numbers3 a label q] (line a 14 label (countKeys.map fun k => showPlaces 2 (q k))) :=
  doc_row3 (showPlaces_decimals (by decide) _) (showPlaces_decimals (by decide) _) (showPlaces_decimals (by decide) _)

theorem doc_percents (a : Nat) (label : Text) (q : Measure → ℚ) :
    Document [percents3 a label q] (line a 14 label (measureKeys.map fun k => showMeasure true (q k))) :=
  doc_row3 (showPlaces_decimals (by decide) _) (showPlaces_decimals (by decide) _) (showPlaces_decimals (by decide) _)

theorem doc_countTitles (a : Nat) (label : String) :
    Document [countTitles a label] (line a 14 label.toList (countKeys.map countTitle)) := doc_row3 rfl rfl rfl

theorem doc_measureTitles (a : Nat) (label : String) :
    Document [measureTitles a label] (line a 14 label.toList (measureKeys.map measureTitle)) := doc_row3 rfl rfl rfl

theorem doc_title (t : Text) : Document (if t = [] then [] else [.title t, .blank]) (if t = [] then [] else t ++ "\n\n".toList) := by
  split
  · exact Document.nil
  · exact ⟨[t, []], .cons rfl (.cons rfl .nil), by unfold ended; simp⟩

theorem zipWith_names {β : Type} (f : Text → β → Desc) (names : List Name) (l : List β) :
    List.zipWith f (names.map Name.text) l = (names.zip l).map fun x => f x.1.text x.2 := by
  induction names generalizing l with
  | nil => rfl
  | cons n names ih => cases l with
    | nil => rfl
    | cons b l => simp [ih]

theorem doc_table (sqrt : ℚ → ℚ) (a : Nat) (title : Text) (names : List Name) (counts : List Counts) (s : TableStats) :
    Document (tableDoc sqrt a title (names.map Name.text) counts s)
      ((if title = [] then [] else title ++ "\n\n".toList) ++ countPart sqrt a names counts s ++ "\n\n".toList ++
      measurePart sqrt true a names s ++ "\n\n".toList) := by
  have h1 : Document ([countTitles a "Name:", .rule '-' (a + 42)] ++ List.zipWith (counts3 a) (names.map Name.text) counts ++
      [.rule '-' (a + 42), counts3 a "Sum:".toList s.sum, numbers3 a "Mean:".toList s.countMean,
        numbers3 a "Var:".toList s.countVar, numbers3 a "Sd:".toList fun c => sqrt (s.countVar c)])
      (countPart sqrt a names counts s) := by
    rw [zipWith_names]
    unfold countPart
    have := ((((((((doc_countTitles a "Name:").append (doc_rule (a + 42))).append (Document.rows (l := names.zip counts)
      fun x _ => doc_counts a x.1.text x.2)).append (doc_rule (a + 42))).append (doc_counts a "Sum:".toList s.sum)).append
      (doc_numbers a "Mean:".toList s.countMean)).append (doc_numbers a "Var:".toList s.countVar)).append
      (doc_numbers a "Sd:".toList fun c => sqrt (s.countVar c)))
    simpa only [List.append_assoc, List.cons_append, List.nil_append] using this
  have h2 : Document ([measureTitles a "Name:", .rule '-' (a + 42)] ++ List.zipWith (percents3 a) (names.map Name.text) s.rows ++
      [.rule '-' (a + 42), percents3 a "Macro Mean:".toList s.macroMean, percents3 a "Macro Var:".toList s.macroVar,
        percents3 a "Macro Sd:".toList fun m => sqrt (s.macroVar m), percents3 a "Micro Mean:".toList s.microMean,
        percents3 a "Micro Var:".toList s.microVar, percents3 a "Micro Sd:".toList fun m => sqrt (s.microVar m)])
      (measurePart sqrt true a names s) := by
    rw [zipWith_names]
    unfold measurePart
    have := ((((((((((doc_measureTitles a "Name:").append (doc_rule (a + 42))).append (Document.rows (l := names.zip s.rows)
      fun x _ => doc_percents a x.1.text x.2)).append (doc_rule (a + 42))).append
      (doc_percents a "Macro Mean:".toList s.macroMean)).append (doc_percents a "Macro Var:".toList s.macroVar)).append
      (doc_percents a "Macro Sd:".toList fun m => sqrt (s.macroVar m))).append
      (doc_percents a "Micro Mean:".toList s.microMean)).append (doc_percents a "Micro Var:".toList s.microVar)).append
      (doc_percents a "Micro Sd:".toList fun m => sqrt (s.microVar m)))
    simpa only [List.append_assoc, List.cons_append, List.nil_append] using this
  have := ((((doc_title title).append h1).append doc_blanks).append h2).append doc_blanks
  unfold tableDoc
  simpa only [List.append_assoc, List.cons_append, List.nil_append] using this

theorem namespaceOf_ok {names : List Name} (h : names ≠ []) : ∃ a, namespaceOf names = .ok a ∧ 14 ≤ a ∧
    (∀ n ∈ names, n.len + 4 ≤ a) ∧ (a = 14 ∨ ∃ n ∈ names, a = n.len + 4) := by
  cases names with
  | nil => exact absurd rfl h
  | cons n l =>
    obtain ⟨h1, h2⟩ := foldl_max_ge (l.map Name.len) n.len
    refine ⟨_, rfl, by omega, fun m hm => ?_, ?_⟩
    · rcases List.mem_cons.1 hm with rfl | hm
      · omega
      · have := h2 m.len (List.mem_map_of_mem hm); omega
    · have key : ∀ (l : List Nat) (k : Nat), l.foldl max k = k ∨ l.foldl max k ∈ l := by
        intro l
        induction l with
        | nil => intro k; exact Or.inl rfl
        | cons x l ih =>
          intro k
          rw [List.foldl_cons]
          rcases ih (max k x) with h | h
          · rw [h]
            rcases Nat.le_total k x with h' | h'
            · rw [Nat.max_eq_right h']; exact Or.inr (by simp)
            · rw [Nat.max_eq_left h']; exact Or.inl rfl
          · exact Or.inr (by simp [h])
      rcases Nat.le_total ((l.map Name.len).foldl max n.len + 4) 14 with hm | hm
      · exact Or.inl (by omega)
      · right
        rcases key (l.map Name.len) n.len with h | h
        · exact ⟨n, by simp, by omega⟩
        · obtain ⟨m, hm', e⟩ := List.mem_map.1 h
          exact ⟨m, by simp [hm'], by omega⟩

theorem writeTable_doc (sqrt : ℚ → ℚ) (title : Text) {names : List Name} {a : Nat} (h : namespaceOf names = .ok a)
    (counts : List Counts) (s : TableStats) : ∃ t, writeTable sqrt true title names counts s = (t, none) ∧
    Document (tableDoc sqrt a title (names.map Name.text) counts s) t := by
  unfold writeTable
  rw [h]
  exact ⟨_, rfl, doc_table sqrt a title names counts s⟩

/-- A loop whose rounds write documents. -/
theorem writeAll_doc {ι : Type} {f : ι → Out} {d : ι → List Desc} : ∀ {l : List ι}, (∀ i ∈ l, ∃ t, f i = (t, none) ∧ Document (d i) t) →
    ∃ t, writeAll f l = (t, none) ∧ Document (l.map d).flatten t
  | [], _ => ⟨[], rfl, Document.nil⟩
  | i :: l, h => by
    obtain ⟨t, e, hd⟩ := h i (by simp)
    obtain ⟨u, e2, hd2⟩ := writeAll_doc (l := l) fun j hj => h j (by simp [hj])
    refine ⟨t ++ u, ?_, ?_⟩
    · rw [writeAll, e, e2]; rfl
    · rw [List.map_cons, List.flatten_cons]; exact hd.append hd2

theorem andThen_doc {a b : Out} {d e : List Desc} (ha : ∃ t, a = (t, none) ∧ Document d t) (hb : ∃ t, b = (t, none) ∧ Document e t) :
    ∃ t, Out.andThen a b = (t, none) ∧ Document (d ++ e) t := by
  obtain ⟨t, rfl, h1⟩ := ha
  obtain ⟨u, rfl, h2⟩ := hb
  exact ⟨t ++ u, rfl, h1.append h2⟩

theorem flatten_ones {ι : Type} (f : ι → Desc) (l : List ι) : (l.map fun i => [f i]).flatten = l.map f := by
  induction l with
  | nil => rfl
  | cons i l ih => simp [ih]

theorem writeOverall_doc {e : Eval} {s : EvalStats} {stats : String → TableStats}
    (hs : ∀ r ∈ e.relations, s.tables.get? r = some (stats r)) (hl : e.relations.length ≤ e.tables.length) :
    ∃ t, writeOverall true e s = (t, none) ∧ Document (overallDoc e.relations stats s) t := by
  unfold writeOverall
  rw [List.take_of_length_le hl]
  have h1 : ∃ t, writeAll (relationLine (fun ts => countKeys.map fun c => str (ts.sum c)) s) e.relations = (t, none) ∧
      Document (e.relations.map fun r => counts3 14 r.toList (stats r).sum) t := by
    rw [← flatten_ones]
    refine writeAll_doc fun r hr => ⟨_, ?_, doc_counts 14 r.toList (stats r).sum⟩
    unfold relationLine
    rw [hs r hr]
  have h2 : ∃ t, writeAll (relationLine (fun ts => measureKeys.map fun m => showMeasure true (ts.microMean m)) s) e.relations = (t, none) ∧
      Document (e.relations.map fun r => percents3 14 r.toList (stats r).microMean) t := by
    rw [← flatten_ones]
    refine writeAll_doc fun r hr => ⟨_, ?_, doc_percents 14 r.toList (stats r).microMean⟩
    unfold relationLine
    rw [hs r hr]
  have := andThen_doc ⟨_, rfl, ((doc_header "Alignment over all relations").append (doc_countTitles 14 "Relation:")).append (doc_rule (4 * 14))⟩
    (andThen_doc h1 (andThen_doc ⟨_, rfl, ((((doc_rule (4 * 14)).append (doc_counts 14 "Sum:".toList s.sum)).append doc_blanks).append
      (doc_measureTitles 14 "Relation:")).append (doc_rule (4 * 14))⟩
      (andThen_doc h2 ⟨_, rfl, (((doc_rule (4 * 14)).append (doc_percents 14 "Macro Mean:".toList s.macroMean)).append
        (doc_percents 14 "Micro Mean:".toList s.microMean)).append doc_blanks⟩)))
  unfold overallDoc
  simpa only [List.append_assoc, List.cons_append, List.nil_append] using this

theorem writeEval_doc (sqrt : ℚ → ℚ) {names : List Name} {a : Nat} (h : namespaceOf names = .ok a) {e : Eval} {s : EvalStats}
    {counts : String → List Counts} {stats : String → TableStats}
    (ht : ∀ r, r = anyRel ∨ r ∈ e.relations → e.tables.get? r = some (counts r) ∧ s.tables.get? r = some (stats r))
    (hl : e.relations.length ≤ e.tables.length) :
    ∃ t, writeEval sqrt names e s = (t, none) ∧ Document (evalDoc sqrt a (names.map Name.text) e.relations counts stats s) t := by
  have hrel : ∀ title r, r = anyRel ∨ r ∈ e.relations → ∃ t, writeRelation sqrt names e s title r = (t, none) ∧
      Document (tableDoc sqrt a title (names.map Name.text) (counts r) (stats r)) t := by
    intro title r hr
    unfold writeRelation
    rw [(ht r hr).1, (ht r hr).2]
    exact writeTable_doc sqrt title h _ _
  have := andThen_doc (andThen_doc ⟨_, rfl, doc_header "Alignment only (regardlless of relation)"⟩ (hrel [] anyRel (Or.inl rfl)))
    (andThen_doc (andThen_doc ⟨_, rfl, doc_header "Alignment per relation"⟩
      (writeAll_doc (l := e.relations) fun r hr => hrel (r.toList.map Char.toUpper) r (Or.inr hr)))
      (writeOverall_doc (fun r hr => (ht r (Or.inr hr)).2) hl))
  unfold evalDoc writeEval writeOnly writePerRelation
  simpa only [List.append_assoc] using this

/-! ### Agreement -/

theorem label11_eq (l : Text) : label11 l = rjust 12 (l ++ [':']) := by
  unfold label11 rjust
  simp

theorem showCell_shows (percent : Bool) (q : ℚ) : (Cell.right 12 (score percent q)).Shows (showCell percent q) := by
  unfold showCell score
  cases percent
  · exact ⟨_, showPlaces_decimals (by decide) q, rfl⟩
  · exact ⟨_, showPlaces_decimals (by decide) _, rfl⟩

/-- A loop whose rounds write cells. -/
theorem writeAll_cells {ι : Type} {f : ι → Out} {c : ι → Cell} : ∀ {l : List ι}, (∀ i ∈ l, ∃ t, f i = (t, none) ∧ (c i).Shows t) →
    ∃ ts, writeAll f l = (ts.flatten, none) ∧ List.Forall₂ Cell.Shows (l.map c) ts
  | [], _ => ⟨[], rfl, .nil⟩
  | i :: l, h => by
    obtain ⟨t, e, hd⟩ := h i (by simp)
    obtain ⟨u, e2, hd2⟩ := writeAll_cells (l := l) fun j hj => h j (by simp [hj])
    exact ⟨t :: u, by rw [writeAll, e, e2]; rfl, .cons hd hd2⟩

theorem doc_row12 (label : String) {fields : List Field} {ts : List Text} (h : List.Forall₂ Cell.Shows (fields.map (Cell.right 12)) ts) :
    Document [row12 label.toList fields] (label11 label.toList ++ (ts.flatten ++ ['\n'])) := by
  rw [← List.append_assoc]
  refine Document.one ⟨label11 label.toList :: ts, .cons ⟨label.toList ++ [':'], rfl, label11_eq _⟩ h, rfl⟩

theorem writeMatrix_doc (sqrt : ℚ → ℚ) (percent : Bool) (title : Text) {labels : List String} {d : Agreement.Table}
    {v : String → String → ℚ} {mean var : String → ℚ} {meanAll varAll : ℚ}
    (hv : ∀ r ∈ labels, ∀ c ∈ labels, r ≠ c → Agreement.cell d r c = .ok (v r c))
    (hm : ∀ c ∈ labels, Agreement.cell d "mean" c = .ok (mean c)) (hs : ∀ c ∈ labels, Agreement.cell d "SD" c = .ok (var c))
    (hma : Agreement.cell d "mean" "overall" = .ok meanAll) (hsa : Agreement.cell d "SD" "overall" = .ok varAll) :
    ∃ t, writeMatrix sqrt percent title labels d = (t, none) ∧
      Document (matrixDoc sqrt percent title labels v mean var meanAll varAll) t := by
  have hcell : ∀ (f : ℚ → ℚ) r c q, Agreement.cell d r c = .ok q → ∃ t, matrixCell percent f d r c = (t, none) ∧
      (Cell.right 12 (score percent (f q))).Shows t := by
    intro f r c q hq
    unfold matrixCell
    rw [hq]
    exact ⟨_, rfl, showCell_shows percent (f q)⟩
  have h1 : Document [.row (.right 12 (.text []) :: (labels ++ ["overall"]).map fun l => Cell.right 12 (.text (l.toList ++ [':'])))]
      (spaces 12 ++ ((labels ++ ["overall"]).map fun l => label11 l.toList).flatten ++ ['\n']) := by
    refine Document.one ⟨spaces 12 :: (labels ++ ["overall"]).map fun l => label11 l.toList, .cons ⟨[], rfl, by unfold spaces; simp⟩ ?_, by rw [List.flatten_cons]⟩
    rw [List.forall₂_map_left_iff, List.forall₂_map_right_iff]
    exact List.forall₂_same.2 fun l _ => ⟨l.toList ++ [':'], rfl, label11_eq _⟩
  have h2 : ∃ t, writeAll (annotatorLine percent labels d) labels = (t, none) ∧ Document (labels.map fun r =>
      row12 r.toList (labels.map fun c => if r = c then .text [] else score percent (v r c))) t := by
    rw [← flatten_ones]
    refine writeAll_doc fun r hr => ?_
    obtain ⟨ts, e, hts⟩ := writeAll_cells (l := labels) (f := fun col => if r ≠ col then matrixCell percent id d r col else (spaces 12, none))
      (c := fun c => Cell.right 12 (if r = c then .text [] else score percent (v r c))) (by
        intro c hc
        by_cases hrc : r = c
        · refine ⟨spaces 12, by simp [hrc], ?_⟩
          rw [if_pos hrc]
          exact ⟨[], rfl, rfl⟩
        · obtain ⟨t, e, h⟩ := hcell id r c (v r c) (hv r hr c hc hrc)
          refine ⟨t, by rw [if_pos hrc]; exact e, ?_⟩
          rw [if_neg hrc]; exact h)
    refine ⟨_, ?_, doc_row12 r (fields := labels.map fun c => if r = c then .text [] else score percent (v r c)) (by rw [List.map_map]; exact hts)⟩
    unfold annotatorLine
    rw [e]
    rfl
  have hstat : ∀ (f : ℚ → ℚ) (row : String) (g : String → ℚ) (o : ℚ), (∀ c ∈ labels, Agreement.cell d row c = .ok (g c)) →
      Agreement.cell d row "overall" = .ok o → ∃ t, statLine percent f labels d row = (t, none) ∧
      Document [row12 row.toList ((labels.map fun c => score percent (f (g c))) ++ [score percent (f o)])] t := by
    intro f row g o hg ho
    obtain ⟨ts, e, hts⟩ := writeAll_cells (l := labels) (f := matrixCell percent f d row)
      (c := fun c => Cell.right 12 (score percent (f (g c)))) fun c hc => hcell f row c (g c) (hg c hc)
    obtain ⟨t, e2, ht⟩ := hcell f row "overall" o ho
    have e3 : writeAll (matrixCell percent f d row) (labels ++ ["overall"]) = ((ts ++ [t]).flatten, none) := by
      have key : ∀ (l : List String) (x : Text), writeAll (matrixCell percent f d row) l = (x, none) →
          writeAll (matrixCell percent f d row) (l ++ ["overall"]) = (x ++ t, none) := by
        intro l
        induction l with
        | nil =>
          intro x hx
          simp only [writeAll, Prod.mk.injEq, and_true] at hx
          subst hx
          simp [writeAll, e2, Out.andThen]
        | cons c l ih =>
          intro x hx
          rw [writeAll] at hx
          rw [List.cons_append, writeAll]
          rcases hc : matrixCell percent f d row c with ⟨y, _ | er⟩
          · rw [hc] at hx
            rcases hw : writeAll (matrixCell percent f d row) l with ⟨z, oz⟩
            rw [hw] at hx
            simp only [Out.andThen, Prod.mk.injEq] at hx
            obtain ⟨rfl, rfl⟩ := hx
            rw [ih z hw]
            simp [Out.andThen]
          · rw [hc] at hx
            simp [Out.andThen] at hx
      rw [key labels _ e]
      simp
    refine ⟨_, ?_, doc_row12 row (fields := (labels.map fun c => score percent (f (g c))) ++ [score percent (f o)]) (ts := ts ++ [t]) ?_⟩
    · unfold statLine
      rw [e3]
      rfl
    · rw [List.map_append, List.map_map]
      exact List.rel_append hts (.cons ht .nil)
  have := andThen_doc ⟨_, rfl, ((doc_title title).append h1).append (doc_rule ((labels.length + 2) * 12))⟩
    (andThen_doc h2 (andThen_doc ⟨_, rfl, doc_rule ((labels.length + 2) * 12)⟩
      (andThen_doc (hstat id "mean" mean meanAll hm hma) (andThen_doc (hstat sqrt "SD" var varAll hs hsa) ⟨_, rfl, doc_blanks⟩))))
  unfold matrixDoc writeMatrix
  simpa only [List.append_assoc, List.cons_append, List.nil_append, id] using this

/-! ### Reading -/

theorem splitWs_at {ws : Char → Bool} {b : Char} (hb : ws b = true) (s r : Text) :
    DaesoGraph.splitWs ws (s ++ b :: r) = DaesoGraph.splitWs ws s ++ DaesoGraph.splitWs ws r := by
  induction s with
  | nil => simp [DaesoGraph.splitWs, hb]
  | cons c s ih =>
    rw [List.cons_append]
    by_cases hc : ws c = true
    · simp only [DaesoGraph.splitWs, hc, if_true, ih]
    · cases s with
      | nil =>
        simp [hb, DaesoGraph.splitWs, hc]
      | cons d s =>
        rw [List.cons_append] at ih ⊢
        have e : ∀ v, DaesoGraph.splitWs ws (c :: d :: v) = if ws d then [c] :: DaesoGraph.splitWs ws (d :: v)
            else match DaesoGraph.splitWs ws (d :: v) with
              | t :: ts => (c :: t) :: ts
              | [] => [[c]] := fun v => by
          rw [DaesoGraph.splitWs, if_neg hc]
          rfl
        rw [e, e]
        by_cases hd : ws d = true
        · simp only [hd, if_true, ih, List.cons_append]
        · simp only [hd, ih]
          have hne : DaesoGraph.splitWs ws (d :: s) ≠ [] := by
            cases s with
            | nil => simp [DaesoGraph.splitWs, hd]
            | cons e s =>
              rw [DaesoGraph.splitWs, if_neg hd]
              split
              · simp
              · split <;> simp
          cases hs : DaesoGraph.splitWs ws (d :: s) with
          | nil => exact absurd hs hne
          | cons t ts => rfl

/-- White space: the space, and none of the characters of numbers. -/
structure Space (ws : Char → Bool) : Prop where
  space : ws ' ' = true
  digit : ∀ c, c.isDigit = true → ws c = false
  point : ws '.' = false
  minus : ws '-' = false

theorem splitWs_word {ws : Char → Bool} {w : Text} (hne : w ≠ []) (hw : ∀ c ∈ w, ws c = false) :
    DaesoGraph.splitWs ws w = [w] := by
  have := splitWs_next hne hw [] (by simp)
  simpa [DaesoGraph.splitWs] using this

theorem splitWs_field {ws : Char → Bool} (h : Space ws) (s : Text) {w : Nat} {x : Text} (hx : x.length < w) (hne : x ≠ [])
    (hw : ∀ c ∈ x, ws c = false) : DaesoGraph.splitWs ws (s ++ (List.replicate (w - x.length) ' ' ++ x)) = DaesoGraph.splitWs ws s ++ [x] := by
  obtain ⟨n, hn⟩ : ∃ n, w - x.length = n + 1 := ⟨w - x.length - 1, by omega⟩
  rw [hn, List.replicate_succ, List.cons_append, splitWs_at h.space, splitWs_skips (fun c hc => by rw [List.eq_of_mem_replicate hc]; exact h.space),
    splitWs_word hne hw]

theorem row3_words {ws : Char → Bool} (h : Space ws) {a : Nat} {label l : Text} {x y z : Field}
    (hf : ∀ f ∈ [x, y, z], ∀ t, f.Shows t → t.length < 14 ∧ t ≠ [] ∧ ∀ c ∈ t, ws c = false) (hl : (row3 a label x y z).Shows l) :
    ∃ s t u, x.Shows s ∧ y.Shows t ∧ z.Shows u ∧ DaesoGraph.splitWs ws l = DaesoGraph.splitWs ws label ++ [s, t, u] := by
  obtain ⟨ts, h1, rfl⟩ := hl
  rcases h1 with _ | ⟨⟨lab, hlab, rfl⟩, _ | ⟨⟨s, hs, rfl⟩, _ | ⟨⟨t, ht, rfl⟩, _ | ⟨⟨u, hu, rfl⟩, _ | _⟩⟩⟩⟩
  obtain rfl : lab = label := hlab
  refine ⟨s, t, u, hs, ht, hu, ?_⟩
  obtain ⟨s1, s2, s3⟩ := hf x (by simp) s hs
  obtain ⟨t1, t2, t3⟩ := hf y (by simp) t ht
  obtain ⟨u1, u2, u3⟩ := hf z (by simp) u hu
  simp only [List.flatten_cons, List.flatten_nil, List.append_nil]
  rw [← List.append_assoc, ← List.append_assoc, splitWs_field h _ u1 u2 u3, splitWs_field h _ t1 t2 t3, splitWs_field h _ s1 s2 s3,
    splitWs_end _ _ (fun c hc => by rw [List.eq_of_mem_replicate hc]; exact h.space)]
  simp

theorem decimal_field {ws : Char → Bool} (h : Space ws) {n : Nat} (hn : n < 10 ^ 13) :
    (decimal n).length < 14 ∧ decimal n ≠ [] ∧ ∀ c ∈ decimal n, ws c = false := by
  rw [decimal_eq]
  refine ⟨?_, ?_, fun c hc => h.digit c (digit_toDigits _ c hc)⟩
  · have := (Nat.length_toDigits_le_iff (b := 10) (n := n) (k := 13) (by decide) (by decide)).2 hn
    omega
  · exact Nat.toDigits_ne_nil

theorem decimals_field {ws : Char → Bool} (h : Space ws) {q : ℚ} (hq : |q| ≤ 10 ^ 8) {t : Text} (ht : Decimals 2 q t) :
    t.length < 14 ∧ t ≠ [] ∧ ∀ c ∈ t, ws c = false := by
  obtain ⟨k, f, h1, -, h3, rfl⟩ := ht
  have hk : (k : ℚ) / 10 ^ 2 ≤ 10 ^ 8 + 1 / 200 := by
    have := (abs_le.1 h1).1
    norm_num at this ⊢
    linarith
  have hk' : (k : ℚ) < 100000000000 := by
    rw [div_le_iff₀ (by norm_num)] at hk
    norm_num at hk
    linarith
  have hk2 : k < 10 ^ 11 := by exact_mod_cast hk'
  rw [decimal_eq] at h3 ⊢
  have hd : ∀ c ∈ f, c.isDigit = true := fun c hc => digit_toDigits (10 ^ 2 + k % 10 ^ 2) c (by rw [h3]; simp [hc])
  have hlen : f.length ≤ 2 := by
    have := (Nat.length_toDigits_le_iff (b := 10) (n := 10 ^ 2 + k % 10 ^ 2) (k := 3) (by decide) (by decide)).2 (by omega)
    rw [h3, List.length_cons] at this
    omega
  have h9 := (Nat.length_toDigits_le_iff (b := 10) (n := k / 10 ^ 2) (k := 9) (by decide) (by decide)).2 (by omega)
  refine ⟨?_, by simp, ?_⟩
  · have hs : (if q < 0 then ['-'] else []).length ≤ 1 := by split <;> simp
    simp only [List.length_append, List.length_cons]
    omega
  · intro c hc
    simp only [List.mem_append, List.mem_cons] at hc
    rcases hc with (hc | hc) | rfl | hc
    · split at hc
      · rw [List.mem_singleton] at hc; rw [hc]; exact h.minus
      · simp at hc
    · exact h.digit c (digit_toDigits _ c hc)
    · exact h.point
    · exact h.digit c (hd c hc)

theorem decimal_inj {m n : Nat} (h : decimal m = decimal n) : m = n := by
  rw [← str_decimal, ← str_decimal] at h
  have := showInt_inj h
  omega

theorem mark_split {x : Char} {a b r s : Text} (ha : x ∉ a) (hb : x ∉ b) (h : a ++ x :: r = b ++ x :: s) : a = b ∧ r = s := by
  induction a generalizing b with
  | nil =>
    cases b with
    | nil => simpa using h
    | cons c b => simp at h; simp [← h.1] at hb
  | cons c a ih =>
    cases b with
    | nil => simp at h; simp [h.1] at ha
    | cons d b =>
      simp only [List.cons_append, List.cons.injEq] at h
      rw [List.mem_cons, not_or] at ha hb
      obtain ⟨h1, h2⟩ := ih ha.2 hb.2 h.2
      exact ⟨by rw [h.1, h1], h2⟩

theorem decimal_digit (n : Nat) : ∀ c ∈ decimal n, c.isDigit = true := by
  rw [decimal_eq]; exact digit_toDigits n

theorem decimals_inj {k : Nat} {q q' : ℚ} {t : Text} (h : Decimals k q t) (h' : Decimals k q' t) : |q - q'| ≤ 1 / 10 ^ k := by
  obtain ⟨n, f, h1, -, h3, e⟩ := h
  obtain ⟨n', f', h1', -, h3', e'⟩ := h'
  have hp : (0 : ℚ) < 10 ^ k := by positivity
  have hne : ∀ m, decimal m ≠ [] := fun m => by rw [decimal_eq]; exact Nat.toDigits_ne_nil
  have hdot : ∀ m, '.' ∉ decimal m := fun m hm => by have := decimal_digit m _ hm; simp at this
  have hfirst : ∀ m (u v : Text), decimal m ++ u ≠ '-' :: v := by
    intro m u v hm
    rcases hd : decimal m with _ | ⟨c, w⟩
    · exact hne m hd
    · rw [hd] at hm
      simp only [List.cons_append, List.cons.injEq] at hm
      have := decimal_digit m c (by rw [hd]; simp)
      rw [hm.1] at this
      simp at this
  have key : (q < 0 ↔ q' < 0) ∧ n = n' := by
    have hsplit : ∀ (sg : Text), '.' ∉ sg → sg ++ decimal (n / 10 ^ k) ++ '.' :: f = sg ++ decimal (n' / 10 ^ k) ++ '.' :: f' → n = n' := by
      intro sg hsg hh
      have hno : ∀ m, '.' ∉ sg ++ decimal m := fun m hm => (List.mem_append.1 hm).elim hsg (hdot m)
      obtain ⟨a1, a2⟩ := mark_split (hno _) (hno _) hh
      have a3 := decimal_inj (List.append_cancel_left a1)
      have a4 := decimal_inj (h3.trans (by rw [a2]; exact h3'.symm))
      rw [← Nat.div_add_mod n (10 ^ k), ← Nat.div_add_mod n' (10 ^ k), a3, Nat.add_left_cancel a4]
    rw [e] at e'
    by_cases hq : q < 0 <;> by_cases hq' : q' < 0
    · rw [if_pos hq, if_pos hq'] at e'
      exact ⟨by simp [hq, hq'], hsplit _ (by decide) e'⟩
    · rw [if_pos hq, if_neg hq'] at e'
      exact absurd e'.symm (by simpa using hfirst _ _ _)
    · rw [if_neg hq, if_pos hq'] at e'
      exact absurd e' (by simpa using hfirst _ _ _)
    · rw [if_neg hq, if_neg hq'] at e'
      exact ⟨by simp [hq, hq'], hsplit _ (by decide) e'⟩
  obtain ⟨hs, rfl⟩ := key
  have e2 : (1 : ℚ) / 10 ^ k = 1 / (2 * 10 ^ k) + 1 / (2 * 10 ^ k) := by field_simp; ring
  have b := abs_le.1 h1
  have b' := abs_le.1 h1'
  rw [e2, abs_le]
  by_cases hq : q < 0
  · rw [abs_of_neg hq] at b
    rw [abs_of_neg (hs.1 hq)] at b'
    constructor <;> linarith [b.1, b.2, b'.1, b'.2]
  · rw [abs_of_nonneg (not_lt.1 hq)] at b
    rw [abs_of_nonneg (not_lt.1 (fun h => hq (hs.2 h)))] at b'
    constructor <;> linarith [b.1, b.2, b'.1, b'.2]

end Verif.EvalPrint
