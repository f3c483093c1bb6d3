import Verif.Lemmas.AlignEval
import Verif.Props.GraphPair

/-! Properties C41, C42 and C43 (lib/daeso/pgc/evaluate.py). -/
namespace Verif.Props.AlignEval
open Verif Verif.Spec Verif.AlignEval

/-- A call of `add`: the graph pairs of the true and of the predicted corpus, and the name. -/
structure Call where
  trues : List (Graph.G String String)
  preds : List (Graph.G String String)
  name : Option String

/-- A history: `AlignEval(relations)` followed by calls of `add`. -/
def history (relations : List String) (calls : List Call) : Py Eval :=
  Py.forIn calls (new relations) fun c e => add e c.trues c.preds c.name

/-- What two corpora of equal length mean: for each pair of graph pairs the two alignments. -/
abbrev Meant := List (Alignment String String × Alignment String String)

/-- The graph pairs show these alignments. -/
def Shown (c : Call) (m : Meant) : Prop :=
  List.Forall₂ GraphPair.Shows c.trues (m.map Prod.fst) ∧ List.Forall₂ GraphPair.Shows c.preds (m.map Prod.snd)

/-- All labels are among the relations. -/
def Within (relations : List String) (m : Meant) : Prop :=
  ∀ x ∈ m, ∀ s t r, (x.1 s t = some r ∨ x.2 s t = some r) → r ∈ relations

/-- The counts a relation should have for one corpus pair. -/
noncomputable def meantCounts (r : String) (m : Meant) : Counts
  | .true => (m.map fun x => labelled x.1 r).sum
  | .pred => (m.map fun x => labelled x.2 r).sum
  | .common => (m.map fun x => bothLabelled x.1 x.2 r).sum

/-- The counts regardless of the relation. -/
noncomputable def meantAny (m : Meant) : Counts
  | .true => (m.map fun x => aligned x.1).sum
  | .pred => (m.map fun x => aligned x.2).sum
  | .common => (m.map fun x => bothAligned x.1 x.2).sum

/-- The relations a user may ask for: not the reserved one nor the empty one. -/
def Proper (relations : List String) : Prop := anyRel ∉ relations ∧ "" ∉ relations

private theorem lists_of_shows {g : Graph.G String String} {M : Alignment String String} (h : GraphPair.Shows g M) :
    ∃ l, Verif.GraphPair.alignments g none = .ok l ∧ Lists M l := by
  obtain ⟨l, e1, e2, -, e4⟩ := h.all
  exact ⟨l, e1, e2, e4⟩

private theorem each_of {ts ps : List (Graph.G String String)} {m : Meant}
    (h1 : List.Forall₂ GraphPair.Shows ts (m.map Prod.fst)) (h2 : List.Forall₂ GraphPair.Shows ps (m.map Prod.snd)) :
    ∀ x ∈ (ts.zip ps).zip m, GraphPair.Shows x.1.1 x.2.1 ∧ GraphPair.Shows x.1.2 x.2.2 := by
  induction m generalizing ts ps with
  | nil => simp
  | cons a m ih =>
    cases h1 with
    | cons a1 h1 =>
      cases h2 with
      | cons a2 h2 =>
        intro x hx
        simp only [List.zip_cons_cons, List.mem_cons] at hx
        rcases hx with rfl | hx
        · exact ⟨a1, a2⟩
        · exact ih h1 h2 x hx

private theorem pairs_of {rels : List String} (hp : Proper rels) {c : Call} {m : Meant} (h : Shown c m) (hw : Within rels m) :
    Pairs (fun r => r = anyRel ∨ r ∈ rels) c.trues c.preds m := by
  refine ⟨by simpa using h.1.length_eq, by simpa using h.2.length_eq, ?_, ?_⟩
  · intro x hx
    obtain ⟨h1, h2⟩ := each_of h.1 h.2 x hx
    exact ⟨lists_of_shows h1, lists_of_shows h2, h2.get⟩
  · intro x hx s t r hr
    have := hw x hx s t r hr
    exact ⟨Or.inr this, fun e => hp.1 (e ▸ this), fun e => hp.2 (e ▸ this)⟩

private theorem row_rel {rels : List String} (hp : Proper rels) {r : String} (hr : r ∈ rels) (m : Meant) :
    corpusRow m r = meantCounts r m := by
  have : r ≠ anyRel := fun e => hp.1 (e ▸ hr)
  funext c
  cases c <;> simp [corpusRow, total, pairRow, meantCounts, this]

private theorem row_any (m : Meant) : corpusRow m anyRel = meantAny m := by
  funext c
  cases c <;> simp [corpusRow, total, pairRow, meantAny]

/-- The name of the row of a call: the one given, or `part1`, `part2`, ... -/
def rowName (i : Nat) (c : Call) : String :=
  if c.name.getD "" = "" then "part" ++ toString (i + 1) else c.name.getD ""

private theorem nameOf_eq (i : Nat) (c : Call) : nameOf i c.name = rowName i c := by
  unfold nameOf rowName
  rcases c.name with _ | s
  · rfl
  · rfl

private theorem history_tables {rels : List String} (hp : Proper rels) : ∀ {calls : List Call} {ms : List Meant},
    List.Forall₂ Shown calls ms → (∀ m ∈ ms, Within rels m) → ∀ {e : Eval} {rows : String → List Counts},
    e.relations = rels → ∀ n, (rows anyRel).length = n → Tables (fun r => r = anyRel ∨ r ∈ rels) rows e.tables →
    ∃ e', (Py.forIn calls e fun c e => add e c.trues c.preds c.name) = .ok e' ∧ e'.relations = rels ∧
      e'.names = e.names ++ calls.mapIdx (fun i c => rowName (n + i) c) ∧
      Tables (fun r => r = anyRel ∨ r ∈ rels) (fun r => rows r ++ ms.map fun m => corpusRow m r) e'.tables
  | [], _, .nil, _, e, rows, hr, n, hn, he => ⟨e, rfl, hr, by simp, by simpa using he⟩
  | c :: calls, m :: ms, .cons h1 h2, hw, e, rows, hr, n, hn, he => by
    obtain ⟨e1, f1, f2, f3, f4⟩ := add_tables (Or.inl rfl) he (pairs_of hp h1 (hw m (by simp))) c.name
    obtain ⟨e2, g1, g2, g3, g4⟩ := history_tables hp h2 (fun m hm => hw m (by simp [hm])) (f2.trans hr) (n + 1) (by simp [hn]) f4
    refine ⟨e2, ?_, g2, ?_, ?_⟩
    · unfold Py.forIn; dsimp only; rw [f1]; exact g1
    · rw [g3, f3, hn, nameOf_eq, List.mapIdx_cons, List.append_assoc, List.singleton_append]
      congr 3
      funext i c'
      rw [Nat.add_comm i 1, ← Nat.add_assoc]
    · simpa [List.append_assoc] using g4

private theorem history_new {rels : List String} (hp : Proper rels) {calls : List Call} {ms : List Meant}
    (h : List.Forall₂ Shown calls ms) (hw : ∀ m ∈ ms, Within rels m) :
    ∃ e, history rels calls = .ok e ∧ e.relations = rels ∧ e.names = calls.mapIdx rowName ∧
      Tables (fun r => r = anyRel ∨ r ∈ rels) (fun r => ms.map fun m => corpusRow m r) e.tables := by
  obtain ⟨e, h1, h2, h3, h4⟩ := history_tables hp h hw (e := new rels) rfl 0 rfl (new_tables rels)
  refine ⟨e, h1, h2, ?_, ?_⟩
  · simpa [new] using h3
  · simpa using h4

/-- C41.  After any history of corpora with known relations, there is one row for each call of `add`, with for each
relation, and regardless of relations, the numbers of true, of predicted and of common alignments.  The rows are named as
asked for, or `part1`, `part2`, ... after their numbers. -/
theorem counts_are_cardinalities {relations : List String} (hp : Proper relations) {calls : List Call} {ms : List Meant}
    (h : List.Forall₂ Shown calls ms) (hw : ∀ m ∈ ms, Within relations m) :
    ∃ e, history relations calls = .ok e ∧ e.relations = relations ∧ e.names = calls.mapIdx rowName ∧
      (∀ r ∈ relations, e.tables.get? r = some (ms.map (meantCounts r))) ∧
      e.tables.get? anyRel = some (ms.map meantAny) ∧
      (∀ r, r ∉ relations → r ≠ anyRel → e.tables.get? r = none) := by
  obtain ⟨e, h1, h2, h3, h4⟩ := history_new hp h hw
  refine ⟨e, h1, h2, h3, fun r hr => ?_, ?_, fun r hr hn => (h4.2 r).2 (by simp [hr, hn])⟩
  · rw [(h4.2 r).1 (Or.inr hr)]
    simp only [row_rel hp hr]
  · rw [(h4.2 anyRel).1 (Or.inl rfl)]
    simp only [row_any]

private theorem sum_le {α : Type} {l : List α} {f g : α → Nat} (h : ∀ x ∈ l, f x ≤ g x) : (l.map f).sum ≤ (l.map g).sum := by
  induction l with
  | nil => simp
  | cons x l ih =>
    have h1 := h x (by simp)
    have h2 := ih fun y hy => h y (by simp [hy])
    simp only [List.map_cons, List.sum_cons]
    omega

private theorem shown_lists : ∀ {ts ps : List (Graph.G String String)} {m : Meant},
    List.Forall₂ GraphPair.Shows ts (m.map Prod.fst) → List.Forall₂ GraphPair.Shows ps (m.map Prod.snd) →
    ∀ x ∈ m, (∃ l, Lists x.1 l) ∧ (∃ l, Lists x.2 l)
  | _, _, [], _, _ => by simp
  | _ :: _, _ :: _, a :: m, .cons a1 h1, .cons a2 h2 => by
    intro x hx
    rcases List.mem_cons.1 hx with rfl | hx
    · obtain ⟨l1, -, L1⟩ := lists_of_shows a1
      obtain ⟨l2, -, L2⟩ := lists_of_shows a2
      exact ⟨⟨l1, L1⟩, ⟨l2, L2⟩⟩
    · exact shown_lists h1 h2 x hx

/-- C41.  No more common alignments than true ones or predicted ones. -/
theorem common_le {c : Call} {m : Meant} (h : Shown c m) (r : String) :
    meantCounts r m .common ≤ meantCounts r m .true ∧ meantCounts r m .common ≤ meantCounts r m .pred ∧
    meantAny m .common ≤ meantAny m .true ∧ meantAny m .common ≤ meantAny m .pred := by
  have key := shown_lists h.1 h.2
  refine ⟨sum_le fun x hx => ?_, sum_le fun x hx => ?_, sum_le fun x hx => ?_, sum_le fun x hx => ?_⟩
  · obtain ⟨⟨l, L⟩, -⟩ := key x hx; exact L.le_left r
  · obtain ⟨-, ⟨l, L⟩⟩ := key x hx; rw [bothLabelled_comm]; exact L.le_left r
  · obtain ⟨⟨l, L⟩, -⟩ := key x hx; exact L.any_le_left
  · obtain ⟨-, ⟨l, L⟩⟩ := key x hx; rw [bothAligned_comm]; exact L.any_le_left

private theorem swap (relations : List String) (f : String → (Alignment String String × Alignment String String) → Nat)
    (m : Meant) : (relations.map fun r => (m.map (f r)).sum).sum = (m.map fun x => (relations.map fun r => f r x).sum).sum := by
  induction m with
  | nil => simp
  | cons x m ih => simp only [List.map_cons, List.sum_cons, List.sum_map_add, ih]

/-- C41.  The numbers of true and of predicted alignments regardless of the relation are the sums over the relations. -/
theorem any_is_sum {relations : List String} (hn : relations.Nodup) {c : Call} {m : Meant} (h : Shown c m)
    (hw : Within relations m) :
    meantAny m .true = (relations.map fun r => meantCounts r m .true).sum ∧
    meantAny m .pred = (relations.map fun r => meantCounts r m .pred).sum := by
  have key := shown_lists h.1 h.2
  constructor
  · show (m.map fun x => aligned x.1).sum = (relations.map fun r => (m.map fun x => labelled x.1 r).sum).sum
    rw [swap relations fun r x => labelled x.1 r]
    congr 1
    apply List.map_congr_left
    intro x hx
    obtain ⟨⟨l, L⟩, -⟩ := key x hx
    exact L.aligned_sum hn fun s t r e => hw x hx s t r (Or.inl e)
  · show (m.map fun x => aligned x.2).sum = (relations.map fun r => (m.map fun x => labelled x.2 r).sum).sum
    rw [swap relations fun r x => labelled x.2 r]
    congr 1
    apply List.map_congr_left
    intro x hx
    obtain ⟨-, ⟨l, L⟩⟩ := key x hx
    exact L.aligned_sum hn fun s t r e => hw x hx s t r (Or.inr e)

/-- C41.  The common alignments regardless of the relation are at least the sum over the relations. -/
theorem any_common_ge {relations : List String} (hn : relations.Nodup) {c : Call} {m : Meant} (h : Shown c m)
    (hw : Within relations m) : (relations.map fun r => meantCounts r m .common).sum ≤ meantAny m .common := by
  have key := shown_lists h.1 h.2
  show (relations.map fun r => (m.map fun x => bothLabelled x.1 x.2 r).sum).sum ≤ (m.map fun x => bothAligned x.1 x.2).sum
  rw [swap relations fun r x => bothLabelled x.1 x.2 r]
  refine sum_le fun x hx => ?_
  obtain ⟨⟨l, L⟩, -⟩ := key x hx
  exact L.common_sum hn fun s t r e => hw x hx s t r (Or.inl e)

/-- C41.  A corpus pair with an unknown relation is refused with a KeyError. -/
theorem unknown_relation {relations : List String} (hp : Proper relations) {calls : List Call} {ms : List Meant}
    (h : List.Forall₂ Shown calls ms) (hw : ∀ m ∈ ms, Within relations m) {c : Call} {m : Meant} (hc : Shown c m)
    (hbad : ∃ x ∈ m, ∃ s t r, (x.1 s t = some r ∨ x.2 s t = some r) ∧ r ∉ relations ∧ r ≠ anyRel) :
    history relations (calls ++ [c]) = .error .keyError := by
  obtain ⟨e, h1, -, -, h4⟩ := history_new hp h hw
  have h5 : add e c.trues c.preds c.name = .error .keyError := by
    refine add_key (K := fun r => r = anyRel ∨ r ∈ relations) (Or.inl rfl) h4 (ms := m) ?_ ?_ ?_ ?_ c.name
    · have := hc.1.length_eq; have := hc.2.length_eq; simp_all
    · simpa using hc.1.length_eq
    · intro x hx
      obtain ⟨h1, h2⟩ := each_of hc.1 hc.2 x hx
      exact ⟨lists_of_shows h1, lists_of_shows h2, h2.get⟩
    · obtain ⟨x, hx, s, t, r, hr, h1, h2⟩ := hbad
      exact ⟨x, hx, s, t, r, hr, by simp [h1, h2]⟩
  have app : ∀ (l : List Call) (e0 e1 : Eval), (Py.forIn l e0 fun c e => add e c.trues c.preds c.name) = .ok e1 →
      (Py.forIn (l ++ [c]) e0 fun c e => add e c.trues c.preds c.name) = add e1 c.trues c.preds c.name := by
    intro l
    induction l with
    | nil =>
      intro e0 e1 he
      obtain rfl : e0 = e1 := by simpa [Py.forIn] using he
      simp only [List.nil_append, Py.forIn]
      cases add e0 c.trues c.preds c.name <;> rfl
    | cons a l ih =>
      intro e0 e1 he
      simp only [List.cons_append, Py.forIn] at he ⊢
      cases ha : add e0 a.trues a.preds a.name with
      | error er => rw [ha] at he; simp at he
      | ok e' => rw [ha] at he; simp only at he ⊢; exact ih e' e1 he
  unfold history at h1 ⊢
  rw [app calls _ e h1, h5]

/-- C41.  A corpus pair with different numbers of graph pairs is refused. -/
theorem unequal_lengths (e : Eval) (c : Call) (h : c.trues.length ≠ c.preds.length) :
    add e c.trues c.preds c.name = .error .assertionError := by
  unfold add; rw [if_pos h]

/-! ### Precision, recall and F score -/

/-- Counts with no more common alignments than true or predicted ones. -/
def Sound (c : Counts) : Prop := c .common ≤ c .true ∧ c .common ≤ c .pred

/-- C42.  Evaluating counts never fails and gives common/pred, common/true and the F score, with 0 for a division by zero. -/
theorem measures_are {beta : ℚ} (h : 0 ≤ beta ∧ beta ≤ 1) (c : Counts) :
    ∃ m, evalCounts beta c = .ok m ∧ m .prec = precisionOf (c .pred) (c .common) ∧
      m .recall = recallOf (c .true) (c .common) ∧ m .f = fOf beta (m .prec) (m .recall) :=
  ⟨_, evalCounts_eq h c, rfl, rfl, rfl⟩

/-- C42.  A beta outside [0, 1] is refused. -/
theorem beta_outside {beta : ℚ} (h : ¬ (0 ≤ beta ∧ beta ≤ 1)) (c : Counts) : evalCounts beta c = .error .assertionError := by
  simp [evalCounts, precision, recall, catch_div', fScore, h, bind, Except.bind]

private theorem ratio_range {a b : Nat} (h : a ≤ b) : 0 ≤ (a : ℚ) / b ∧ (a : ℚ) / b ≤ 1 := by
  refine ⟨by positivity, ?_⟩
  by_cases hb : b = 0
  · simp [hb]
  · have : (0 : ℚ) < b := by exact_mod_cast Nat.pos_of_ne_zero hb
    rw [div_le_one this]
    exact_mod_cast h

private theorem ratio_one {a b : Nat} : (a : ℚ) / b = 1 ↔ a = b ∧ a ≠ 0 := by
  by_cases hb : b = 0
  · subst hb
    simp only [Nat.cast_zero, div_zero, zero_ne_one, false_iff, not_and, not_not]
    exact id
  · have : (b : ℚ) ≠ 0 := by exact_mod_cast hb
    rw [div_eq_one_iff_eq this]
    constructor
    · intro h
      have h' : a = b := by exact_mod_cast h
      exact ⟨h', h' ▸ hb⟩
    · rintro ⟨h, -⟩; rw [h]

private theorem f_between_aux {beta p r : ℚ} (hb : 0 ≤ beta) (hp : 0 ≤ p) (hr : 0 ≤ r) :
    min p r ≤ fOf beta p r ∧ fOf beta p r ≤ max p r := by
  unfold fOf
  have hb2 : 0 ≤ beta ^ 2 := by positivity
  have hbp : 0 ≤ beta ^ 2 * p := mul_nonneg hb2 hp
  by_cases hd : beta ^ 2 * p + r = 0
  · have hr0 : r = 0 := by linarith
    rw [hd, div_zero, hr0]
    simp [hp]
  · have hpos : 0 < beta ^ 2 * p + r := lt_of_le_of_ne (by linarith) (Ne.symm hd)
    rw [le_div_iff₀ hpos, div_le_iff₀ hpos]
    have m1 := min_le_left p r
    have m2 := min_le_right p r
    have M1 := le_max_left p r
    have M2 := le_max_right p r
    constructor
    · nlinarith [mul_le_mul_of_nonneg_left m2 hbp, mul_le_mul_of_nonneg_right m1 hr]
    · nlinarith [mul_le_mul_of_nonneg_left M2 hbp, mul_le_mul_of_nonneg_right M1 hr]

/-- C42.  The measures are in [0, 1] and the F score is between precision and recall. -/
theorem measures_range {beta : ℚ} (h : 0 ≤ beta ∧ beta ≤ 1) {c : Counts} (hc : Sound c) :
    ∃ m, evalCounts beta c = .ok m ∧ (∀ k, 0 ≤ m k ∧ m k ≤ 1) ∧ min (m .prec) (m .recall) ≤ m .f ∧
      m .f ≤ max (m .prec) (m .recall) := by
  have h1 := ratio_range hc.2
  have h2 := ratio_range hc.1
  have h3 := f_between_aux h.1 h1.1 h2.1
  refine ⟨_, evalCounts_eq h c, ?_, h3.1, h3.2⟩
  intro k
  cases k with
  | prec => exact h1
  | recall => exact h2
  | f => exact ⟨le_trans (le_min h1.1 h2.1) h3.1, le_trans h3.2 (max_le h1.2 h2.2)⟩

/-- C42.  Exchanging true and predicted exchanges precision and recall and, for beta 1, keeps the F score. -/
theorem measures_swap {c d : Counts} (h1 : c .true = d .pred) (h2 : c .pred = d .true) (h3 : c .common = d .common) :
    ∃ m n, evalCounts 1 c = .ok m ∧ evalCounts 1 d = .ok n ∧ m .prec = n .recall ∧ m .recall = n .prec ∧ m .f = n .f := by
  refine ⟨_, _, evalCounts_eq beta_one c, evalCounts_eq beta_one d, ?_, ?_, ?_⟩
  · simp [measuresOf, precisionOf, recallOf, h2, h3]
  · simp [measuresOf, precisionOf, recallOf, h1, h3]
  · simp only [measuresOf, precisionOf, recallOf, fOf, h1, h2, h3]
    ring

/-- C42.  For beta 1 the F score is twice the common alignments through all true and predicted ones. -/
theorem f_score {c : Counts} (hc : Sound c) :
    ∃ m, evalCounts 1 c = .ok m ∧ m .f = 2 * c .common / (c .true + c .pred) := by
  refine ⟨_, evalCounts_eq beta_one c, ?_⟩
  simp only [measuresOf, precisionOf, recallOf, fOf]
  by_cases hz : c .common = 0
  · simp [hz]
  · have ht : (c .true : ℚ) ≠ 0 := by have := hc.1; exact_mod_cast (by omega : c .true ≠ 0)
    have hp : (c .pred : ℚ) ≠ 0 := by have := hc.2; exact_mod_cast (by omega : c .pred ≠ 0)
    have hz' : (c .common : ℚ) ≠ 0 := by exact_mod_cast hz
    have hs : (c .true : ℚ) + c .pred ≠ 0 := by
      have := hc.1; exact_mod_cast (by omega : c .true + c .pred ≠ 0)
    field_simp
    ring

/-- C42.  Any of the F score, or both precision and recall, are 1 exactly if all alignments are common and there are some. -/
theorem measures_perfect {beta : ℚ} (h : 0 < beta ∧ beta ≤ 1) {c : Counts} (hc : Sound c) :
    ∃ m, evalCounts beta c = .ok m ∧
      (m .f = 1 ↔ c .true = c .common ∧ c .pred = c .common ∧ c .common ≠ 0) ∧
      (m .prec = 1 ∧ m .recall = 1 ↔ c .true = c .common ∧ c .pred = c .common ∧ c .common ≠ 0) := by
  refine ⟨_, evalCounts_eq ⟨h.1.le, h.2⟩ c, ?_, ?_⟩
  · have h1 := ratio_range hc.2
    have h2 := ratio_range hc.1
    have key : fOf beta (precisionOf (c .pred) (c .common)) (recallOf (c .true) (c .common)) = 1 ↔
        precisionOf (c .pred) (c .common) = 1 ∧ recallOf (c .true) (c .common) = 1 := by
      change 0 ≤ precisionOf (c .pred) (c .common) ∧ precisionOf (c .pred) (c .common) ≤ 1 at h1
      change 0 ≤ recallOf (c .true) (c .common) ∧ recallOf (c .true) (c .common) ≤ 1 at h2
      generalize precisionOf (c .pred) (c .common) = p at *
      generalize recallOf (c .true) (c .common) = r at *
      have hb2 : 0 < beta ^ 2 := by have := h.1; positivity
      unfold fOf
      constructor
      · intro hf
        by_cases hd : beta ^ 2 * p + r = 0
        · rw [hd, div_zero] at hf; exact absurd hf (by norm_num)
        · rw [div_eq_one_iff_eq hd] at hf
          have e1 : beta ^ 2 * p * (1 - r) + r * (1 - p) = 0 := by linarith
          have t1 : 0 ≤ beta ^ 2 * p * (1 - r) := mul_nonneg (mul_nonneg hb2.le h1.1) (by linarith [h2.2])
          have t2 : 0 ≤ r * (1 - p) := mul_nonneg h2.1 (by linarith [h1.2])
          have z1 : beta ^ 2 * p * (1 - r) = 0 := by linarith
          have z2 : r * (1 - p) = 0 := by linarith
          rcases mul_eq_zero.1 z2 with hr0 | hp1
          · rw [hr0] at z1 hd
            rcases mul_eq_zero.1 z1 with z | z
            · exact absurd (by rw [z]; norm_num) hd
            · norm_num at z
          · have hp : p = 1 := by linarith
            rw [hp] at z1
            rcases mul_eq_zero.1 z1 with z | z
            · nlinarith
            · exact ⟨hp, by linarith⟩
      · rintro ⟨rfl, rfl⟩
        rw [div_eq_one_iff_eq (by nlinarith)]; ring
    show fOf beta (precisionOf (c .pred) (c .common)) (recallOf (c .true) (c .common)) = 1 ↔ _
    rw [key]
    unfold precisionOf recallOf
    rw [ratio_one, ratio_one]
    constructor
    · rintro ⟨⟨a, b⟩, ⟨c, d⟩⟩; exact ⟨c.symm, a.symm, b⟩
    · rintro ⟨a, b, c⟩; exact ⟨⟨b.symm, c⟩, ⟨a.symm, c⟩⟩
  · show precisionOf (c .pred) (c .common) = 1 ∧ recallOf (c .true) (c .common) = 1 ↔ _
    unfold precisionOf recallOf
    rw [ratio_one, ratio_one]
    constructor
    · rintro ⟨⟨a, b⟩, ⟨c, d⟩⟩; exact ⟨c.symm, a.symm, b⟩
    · rintro ⟨a, b, c⟩; exact ⟨⟨b.symm, c⟩, ⟨a.symm, c⟩⟩

/-! ### Summaries -/

/-- C43.  The summary of a table with rows: sums of the counts, means of counts and measures over the rows (macro), the
measures of the summed counts (micro), and the variances around these means. -/
theorem table_summary {t : List Counts} (ht : t ≠ []) :
    ∃ s, evalTable t = .ok s ∧ List.Forall₂ (fun x m => evalCounts 1 x = .ok m) t s.rows ∧
      (∀ c, s.sum c = (t.map fun x => x c).sum) ∧ (∀ c, s.countMean c = meanOf (t.map fun x => (x c : ℚ))) ∧
      (∀ c, s.countVar c = varOf (t.map fun x => (x c : ℚ)) (s.countMean c)) ∧
      (∀ m, s.macroMean m = meanOf (s.rows.map fun x => x m)) ∧
      (∀ m, s.macroVar m = varOf (s.rows.map fun x => x m) (s.macroMean m)) ∧
      evalCounts 1 s.sum = .ok s.microMean ∧
      (∀ m, s.microVar m = varOf (s.rows.map fun x => x m) (s.microMean m)) := by
  refine ⟨_, evalTable_eq ht, ?_, fun _ => rfl, fun _ => rfl, fun _ => rfl, fun m => ?_, fun m => ?_,
    evalCounts_eq beta_one _, fun m => ?_⟩
  · show List.Forall₂ _ t (t.map (measuresOf 1))
    rw [List.forall₂_map_right_iff]
    exact List.forall₂_same.2 fun x _ => evalCounts_eq beta_one x
  all_goals simp only [statsOf, List.map_map, Function.comp_def]

/-- C43.  Without corpora there is no summary. -/
theorem no_rows : evalTable [] = .error .zeroDivision := evalTable_nil

private theorem mean_bounds {l : List ℚ} (hl : l ≠ []) {a b : ℚ} (h : ∀ x ∈ l, a ≤ x ∧ x ≤ b) : a ≤ meanOf l ∧ meanOf l ≤ b := by
  have hpos : (0 : ℚ) < l.length := by
    have : 0 < l.length := List.length_pos_iff.2 hl
    exact_mod_cast this
  unfold meanOf
  rw [le_div_iff₀ hpos, div_le_iff₀ hpos]
  clear hl hpos
  induction l with
  | nil => simp
  | cons x l ih =>
    have h1 := h x (by simp)
    have h2 := ih fun y hy => h y (by simp [hy])
    simp only [List.length_cons, List.sum_cons, Nat.cast_add, Nat.cast_one]
    constructor
    · linarith [h1.1, h2.1]
    · linarith [h1.2, h2.2]

/-- C43.  A mean over the rows is between their least and greatest value. -/
theorem macro_between {t : List Counts} (ht : t ≠ []) {s : TableStats} (h : evalTable t = .ok s) (m : Measure) {a b : ℚ}
    (hab : ∀ x ∈ s.rows, a ≤ x m ∧ x m ≤ b) : a ≤ s.macroMean m ∧ s.macroMean m ≤ b := by
  rw [evalTable_eq ht] at h
  obtain rfl := Except.ok.inj h
  apply mean_bounds (by simpa using ht)
  intro v hv
  obtain ⟨x, hx, rfl⟩ := List.mem_map.1 hv
  exact hab (measuresOf 1 x) (List.mem_map.2 ⟨x, hx, rfl⟩)

private theorem var_nonneg {l : List ℚ} (hl : l ≠ []) (m : ℚ) : 0 ≤ varOf l m := by
  unfold varOf
  apply div_nonneg
  · apply List.sum_nonneg
    intro v hv
    obtain ⟨x, -, rfl⟩ := List.mem_map.1 hv
    positivity
  · have : 1 ≤ l.length := List.length_pos_iff.2 hl
    have : (1 : ℚ) ≤ l.length := by exact_mod_cast this
    linarith

/-- C43.  Variances are not negative, and 0 for a single corpus. -/
theorem variances {t : List Counts} (ht : t ≠ []) {s : TableStats} (h : evalTable t = .ok s) :
    (∀ c, 0 ≤ s.countVar c) ∧ (∀ m, 0 ≤ s.macroVar m ∧ 0 ≤ s.microVar m) ∧
    (t.length = 1 → (∀ c, s.countVar c = 0) ∧ ∀ m, s.macroVar m = 0 ∧ s.microVar m = 0) := by
  rw [evalTable_eq ht] at h
  obtain rfl := Except.ok.inj h
  refine ⟨fun c => var_nonneg (by simpa using ht) _, fun m => ⟨var_nonneg (by simpa using ht) _,
    var_nonneg (by simpa using ht) _⟩, fun h1 => ⟨fun c => ?_, fun m => ⟨?_, ?_⟩⟩⟩ <;>
  simp [statsOf, varOf, h1]

/-- C43.  For a single corpus the macro and micro means are its own measures. -/
theorem single_corpus (c : Counts) :
    ∃ s m, evalTable [c] = .ok s ∧ evalCounts 1 c = .ok m ∧ s.macroMean = m ∧ s.microMean = m := by
  refine ⟨_, _, evalTable_eq (by simp), evalCounts_eq beta_one c, ?_, ?_⟩
  · funext k; simp [statsOf, meanOf]
  · simp [statsOf]

/-- C43.  After a history with at least one corpus pair, `run_eval` gives for every relation the summary of its counts;
the overall counts are the sums over the relations, the overall macro measures are the means of the micro measures of
the relations, and the overall micro measures are those of the overall counts. -/
theorem overall {relations : List String} (hp : Proper relations) (hn : relations.Nodup) (h0 : relations ≠ [])
    {calls : List Call} {ms : List Meant} (h : List.Forall₂ Shown calls ms) (hw : ∀ m ∈ ms, Within relations m)
    (hc : calls ≠ []) :
    ∃ e s, history relations calls = .ok e ∧ runEval e = .ok s ∧
      (∀ r ∈ relations, ∃ t, s.tables.get? r = some t ∧ evalTable (ms.map (meantCounts r)) = .ok t) ∧
      (∃ t, s.tables.get? anyRel = some t ∧ evalTable (ms.map meantAny) = .ok t) ∧
      (∀ c, s.sum c = (relations.map fun r => (ms.map fun m => meantCounts r m c).sum).sum) ∧
      (∃ micro : String → Measures, (∀ r, evalCounts 1 (fun c => (ms.map fun m => meantCounts r m c).sum) = .ok (micro r)) ∧
        ∀ m, s.macroMean m = meanOf (relations.map fun r => micro r m)) ∧
      evalCounts 1 s.sum = .ok s.microMean := by
  obtain ⟨e, h1, h2, -, h4⟩ := history_new hp h hw
  have hms : ms ≠ [] := by
    intro e'
    subst e'
    cases h
    exact hc rfl
  obtain ⟨tables, r1, r2⟩ := runEval_eq h2 hn h0 h4 (fun r => by simpa using hms)
  have rel : ∀ r ∈ relations, (ms.map fun m => corpusRow m r) = ms.map (meantCounts r) := by
    intro r hr; simp only [row_rel hp hr]
  refine ⟨e, _, h1, r1, ?_, ?_, ?_, ⟨fun r => measuresOf 1 (fun c => (ms.map fun m => meantCounts r m c).sum),
    fun r => evalCounts_eq beta_one _, ?_⟩, evalCounts_eq beta_one _⟩
  · intro r hr
    refine ⟨_, r2 r (Or.inr hr), ?_⟩
    rw [rel r hr]
    exact evalTable_eq (by simpa using hms)
  · refine ⟨_, r2 anyRel (Or.inl rfl), ?_⟩
    have : (ms.map fun m => corpusRow m anyRel) = ms.map meantAny := by simp only [row_any]
    rw [this]
    exact evalTable_eq (by simpa using hms)
  · intro c
    show (relations.map fun r => ((ms.map fun m => corpusRow m r).map fun x => x c).sum).sum = _
    congr 1
    apply List.map_congr_left
    intro r hr
    rw [rel r hr, List.map_map]; rfl
  · intro m
    show meanOf (relations.map fun r => measuresOf 1 (fun c => ((ms.map fun m => corpusRow m r).map fun x => x c).sum) m) = _
    congr 1
    apply List.map_congr_left
    intro r hr
    rw [rel r hr]
    congr 2
    funext c
    rw [List.map_map]; rfl

private theorem flatten_sum {α : Type} (f : α → Nat) (ms : List (List α)) :
    (ms.flatten.map f).sum = (ms.map fun m => (m.map f).sum).sum := by
  induction ms with
  | nil => rfl
  | cons m ms ih => simp only [List.flatten_cons, List.map_append, List.sum_append, ih, List.map_cons, List.sum_cons]

/-- C43.  The counts of the concatenated corpora are the sums of the counts of the corpora. -/
theorem sums_of_concatenation (r : String) (ms : List Meant) (c : Count) :
    meantCounts r ms.flatten c = (ms.map fun m => meantCounts r m c).sum ∧
    meantAny ms.flatten c = (ms.map fun m => meantAny m c).sum := by
  cases c <;> exact ⟨flatten_sum _ _, flatten_sum _ _⟩

private theorem shown_flatten {calls : List Call} {ms : List Meant} (h : List.Forall₂ Shown calls ms) (name : Option String) :
    Shown ⟨(calls.map Call.trues).flatten, (calls.map Call.preds).flatten, name⟩ ms.flatten := by
  induction h with
  | nil => exact ⟨.nil, .nil⟩
  | cons a _ ih =>
    refine ⟨?_, ?_⟩
    · simp only [List.map_cons, List.flatten_cons, List.map_append]
      exact List.rel_append a.1 ih.1
    · simp only [List.map_cons, List.flatten_cons, List.map_append]
      exact List.rel_append a.2 ih.2

/-- C43.  Evaluating the corpora one by one or concatenated gives the same summed counts, per relation and overall, and
the same micro and overall macro measures. -/
theorem one_by_one_or_concatenated {relations : List String} (hp : Proper relations) (hn : relations.Nodup)
    (h0 : relations ≠ []) {calls : List Call} {ms : List Meant} (h : List.Forall₂ Shown calls ms)
    (hw : ∀ m ∈ ms, Within relations m) (hc : calls ≠ []) (name : Option String) :
    ∃ e e' s s', history relations calls = .ok e ∧
      history relations [⟨(calls.map Call.trues).flatten, (calls.map Call.preds).flatten, name⟩] = .ok e' ∧
      runEval e = .ok s ∧ runEval e' = .ok s' ∧ s.sum = s'.sum ∧ s.microMean = s'.microMean ∧ s.macroMean = s'.macroMean ∧
      ∀ r, r = anyRel ∨ r ∈ relations → ∃ t t', s.tables.get? r = some t ∧ s'.tables.get? r = some t' ∧ t.sum = t'.sum ∧
        t.microMean = t'.microMean := by
  have hw' : ∀ m ∈ [ms.flatten], Within relations m := by
    intro m hm x hx s t r hr
    obtain rfl := List.mem_singleton.1 hm
    obtain ⟨m', hm', hx'⟩ := List.mem_flatten.1 hx
    exact hw m' hm' x hx' s t r hr
  obtain ⟨e, a1, a2, -, a4⟩ := history_new hp h hw
  obtain ⟨e', b1, b2, -, b4⟩ := history_new hp (.cons (shown_flatten h name) .nil) hw'
  have hms : ms ≠ [] := by
    intro e'
    subst e'
    cases h
    exact hc rfl
  obtain ⟨tables, r1, r2⟩ := runEval_eq a2 hn h0 a4 (fun r => by simpa using hms)
  obtain ⟨tables', q1, q2⟩ := runEval_eq b2 hn h0 b4 (fun r => by simp)
  have key : ∀ r c, ((ms.map fun m => corpusRow m r).map fun x => x c).sum =
      (([ms.flatten].map fun m => corpusRow m r).map fun x => x c).sum := by
    intro r c
    simp only [List.map_map, List.map_cons, List.map_nil, List.sum_cons, List.sum_nil, Nat.add_zero, corpusRow, total]
    rw [flatten_sum]; rfl
  refine ⟨e, e', _, _, a1, b1, r1, q1, ?_, ?_, ?_, fun r hr => ⟨_, _, r2 r hr, q2 r hr, ?_, ?_⟩⟩
  · funext c; simp only [allStats, key]
  · simp only [allStats, key]
  · simp only [allStats, key]
  · funext c; simp only [statsOf, key]
  · simp only [statsOf, key]

/-- C43, violated.  Without relations, evaluation fails. -/
theorem no_relations {calls : List Call} {ms : List Meant} (h : List.Forall₂ Shown calls ms) (hw : ∀ m ∈ ms, Within [] m) :
    ∃ e, history [] calls = .ok e ∧ runEval e = .error .zeroDivision := by
  obtain ⟨e, h1, h2, -, h4⟩ := history_new (rels := []) (by simp [Proper]) h hw
  exact ⟨e, h1, runEval_none h2 (by simpa using h4)⟩

/-! ### Examples -/

/-- A graph pair with these alignments. -/
private def pair (l : List (String × String × String)) : Graph.G String String :=
  match GraphPair.run false Verif.Graph.empty (l.map fun x => .add x.1 x.2.1 x.2.2) with
  | .ok x => x.1
  | .error _ => Verif.Graph.empty

/-- Two alignments, of which one is predicted with the same relation and one with another relation. -/
private def sample : Call :=
  ⟨[pair [("1", "2", "equals"), ("3", "4", "restates")]], [pair [("1", "2", "equals"), ("3", "4", "equals")]], none⟩

private def sampleMeant : Meant :=
  [((Alignment.none.put "1" "2" "equals").put "3" "4" "restates", (Alignment.none.put "1" "2" "equals").put "3" "4" "equals")]

private theorem shows_pair (l : List (String × String × String)) :
    GraphPair.Shows (pair l) (GraphPair.runSpec GraphPair.meantMapping Alignment.none
      (l.map fun x => .add x.1 x.2.1 x.2.2)).1 := by
  obtain ⟨g, e, h⟩ := GraphPair.mapping_refines (κ := String) (ρ := String) (l.map fun x => .add x.1 x.2.1 x.2.2)
  unfold pair
  rw [e]
  exact h

private theorem sample_shown : Shown sample sampleMeant :=
  ⟨.cons (shows_pair _) .nil, .cons (shows_pair _) .nil⟩

private theorem sample_within : Within ["equals", "restates"] sampleMeant := by
  intro x hx s t r h
  obtain rfl := List.mem_singleton.1 hx
  simp only [Alignment.put, Alignment.none] at h
  rcases h with h | h <;> split at h <;> (try split at h) <;> simp_all <;> aesop

example : ∃ e s, history ["equals", "restates"] [sample, sample] = .ok e ∧ runEval e = .ok s := by
  obtain ⟨e, s, h1, h2, -⟩ := overall (relations := ["equals", "restates"]) (by simp [Proper, anyRel]) (by decide) (by decide)
    (.cons sample_shown (.cons sample_shown .nil))
    (by intro m hm; simp only [List.mem_cons, List.not_mem_nil, or_false, or_self] at hm; rw [hm]; exact sample_within) (by simp)
  exact ⟨e, s, h1, h2⟩

/-- The row of a relation after one call. -/
private def rowOf (relations : List String) (c : Call) (r : String) : Option (List (Nat × Nat × Nat)) :=
  match history relations [c] with
  | .ok e => (e.tables.get? r).map fun t => t.map fun x => (x .true, x .pred, x .common)
  | .error _ => none

example : rowOf ["equals", "restates"] sample "equals" = some [(1, 2, 1)] := by decide +kernel
example : rowOf ["equals", "restates"] sample "restates" = some [(1, 0, 0)] := by decide +kernel
example : rowOf ["equals", "restates"] sample anyRel = some [(2, 2, 2)] := by decide +kernel
example : history ["equals"] [sample] |>.toOption |>.isNone := by decide +kernel

/-- C43, violated.  A relation given three times is summed twice but divided by three. -/
theorem duplicate_relations :
    ∃ e s, history ["equals", "equals", "equals"] [⟨[pair [("1", "2", "equals")]], [pair [("1", "2", "equals")]], none⟩] = .ok e ∧
      runEval e = .ok s ∧ s.macroMean .prec = 2 / 3 := by
  have key : (match history ["equals", "equals", "equals"]
      [⟨[pair [("1", "2", "equals")]], [pair [("1", "2", "equals")]], none⟩] with
    | .ok e => match runEval e with
      | .ok s => decide (s.macroMean .prec = 2 / 3)
      | .error _ => false
    | .error _ => false) = true := by decide +kernel
  split at key
  · rename_i e he
    split at key
    · rename_i s hs
      exact ⟨e, s, he, hs, of_decide_eq_true key⟩
    · cases key
  · cases key

end Verif.Props.AlignEval
