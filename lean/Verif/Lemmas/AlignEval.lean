import Verif.Model.AlignEval
import Verif.Spec.Agreement
import Verif.Spec.Scores
import Verif.Lemmas.Base

/-! Lemmas about counting alignments. -/
namespace Verif.AlignEval
open Verif Verif.Spec
set_option linter.unusedSectionVars false

/-- Tables for the relations `K`: previous rows and the last row. -/
def Rows (K : String → Prop) (old : String → List Counts) (row : String → Counts) (d : AD String (List Counts)) : Prop :=
  d.WF ∧ ∀ r, (K r → d.get? r = some (old r ++ [row r])) ∧ (¬ K r → d.get? r = none)

/-- Pointwise sum. -/
def plus (row δ : String → Counts) : String → Counts := fun r c => row r c + δ r c

/-- Sum over a list. -/
def total {α : Type} (l : List α) (δ : α → String → Counts) : String → Counts := fun r c => (l.map fun x => δ x r c).sum

/-- One count. -/
def one (r : String) (c : Count) (n : Nat) : String → Counts := fun r' c' => if r' = r ∧ c' = c then n else 0

variable {K : String → Prop} {old : String → List Counts}

theorem bump_rows {row : String → Counts} {d : AD String (List Counts)} (h : Rows K old row d) {r : String} (hr : K r)
    (c : Count) (n : Nat) : ∃ d', bump d r c n = .ok d' ∧ Rows K old (plus row (one r c n)) d' := by
  have h1 := (h.2 r).1 hr
  refine ⟨d.set r (old r ++ [Function.update (row r) c (row r c + n)]), ?_, h.1.set _ _, ?_⟩
  · simp [bump, h1]
  · intro r'
    rw [AD.get?_set]
    by_cases he : r' = r
    · subst he
      rw [if_pos rfl]
      refine ⟨fun _ => ?_, fun hn => absurd hr hn⟩
      congr 3
      funext c'
      simp only [plus, one, Function.update_apply, true_and]
      split
      · rename_i hc; rw [hc]
      · simp
    · rw [if_neg he]
      have : plus row (one r c n) r' = row r' := by
        funext c'; simp [plus, one, he]
      rw [this]
      exact h.2 r'

theorem plus_assoc (a b c : String → Counts) : plus (plus a b) c = plus a (plus b c) := by
  funext r k; simp [plus, Nat.add_assoc]

theorem forIn_rows {α : Type} {f : α → AD String (List Counts) → Py (AD String (List Counts))} {δ : α → String → Counts} :
    ∀ (l : List α), (∀ x ∈ l, ∀ row d, Rows K old row d → ∃ d', f x d = .ok d' ∧ Rows K old (plus row (δ x)) d') →
    ∀ (row : String → Counts) (d : AD String (List Counts)), Rows K old row d →
      ∃ d', Py.forIn l d f = .ok d' ∧ Rows K old (plus row (total l δ)) d'
  | [], _, row, d, h => ⟨d, rfl, by
      have : plus row (total [] δ) = row := by funext r c; simp [plus, total]
      rwa [this]⟩
  | x :: l, hf, row, d, h => by
    obtain ⟨d1, e1, h1⟩ := hf x (by simp) row d h
    obtain ⟨d2, e2, h2⟩ := forIn_rows l (fun y hy => hf y (by simp [hy])) _ d1 h1
    refine ⟨d2, ?_, ?_⟩
    · unfold Py.forIn
      rw [e1]
      exact e2
    · have : plus row (total (x :: l) δ) = plus (plus row (δ x)) (total l δ) := by
        funext r c; simp [plus, total, Nat.add_assoc]
      rwa [this]

/-- What a true alignment adds. -/
def trueDelta (N : Alignment String String) (x : (String × String) × String) : String → Counts :=
  plus (one x.2 .true 1) (plus (one anyRel .common (if (N x.1.1 x.1.2).isSome then 1 else 0))
    (one x.2 .common (if N x.1.1 x.1.2 = some x.2 then 1 else 0)))

theorem plus_zero (row : String → Counts) (r : String) (c : Count) : plus row (one r c 0) = row := by
  funext r' c'; simp [plus, one]

theorem addTrue_rows {g : Graph.G String String} {N : Alignment String String}
    (hg : ∀ s t, GraphPair.getAlign g s t = .ok (N s t)) (hN : ∀ s t, N s t ≠ some "") (hany : K anyRel)
    {x : (String × String) × String} (hx : K x.2) {row : String → Counts} {d : AD String (List Counts)}
    (h : Rows K old row d) : ∃ d', addTrue g x d = .ok d' ∧ Rows K old (plus row (trueDelta N x)) d' := by
  obtain ⟨d1, e1, h1⟩ := bump_rows h hx .true 1
  unfold addTrue
  simp only [e1, hg, bind, Except.bind]
  cases hn : N x.1.1 x.1.2 with
  | none =>
    refine ⟨d1, rfl, ?_⟩
    have : plus row (trueDelta N x) = plus row (one x.2 .true 1) := by
      unfold trueDelta
      simp [hn, plus_zero]
    rwa [this]
  | some r =>
    have hne : r ≠ "" := fun he => hN _ _ (he ▸ hn)
    obtain ⟨d2, e2, h2⟩ := bump_rows h1 hany .common 1
    simp only [hne, if_false, e2]
    by_cases hr : r = x.2
    · obtain ⟨d3, e3, h3⟩ := bump_rows h2 hx .common 1
      simp only [hr, if_true, e3]
      refine ⟨d3, rfl, ?_⟩
      have : plus row (trueDelta N x) =
          plus (plus (plus row (one x.2 .true 1)) (one anyRel .common 1)) (one x.2 .common 1) := by
        unfold trueDelta
        simp [hn, hr, plus_assoc]
      rwa [this]
    · simp only [hr, if_false]
      refine ⟨d2, rfl, ?_⟩
      have : plus row (trueDelta N x) = plus (plus row (one x.2 .true 1)) (one anyRel .common 1) := by
        unfold trueDelta
        simp [hn, hr, plus_assoc, plus_zero]
      rwa [this]

/-- What a pair of graph pairs adds. -/
def pairDelta (N : Alignment String String) (ts ps : List ((String × String) × String)) : String → Counts :=
  plus (total ts (trueDelta N)) (plus (one anyRel .true ts.length)
    (plus (total ps fun y => one y.2 .pred 1) (one anyRel .pred ps.length)))

theorem addPair_rows {g h : Graph.G String String} {N : Alignment String String}
    (hN : ∀ s t, GraphPair.getAlign h s t = .ok (N s t)) (hne : ∀ s t, N s t ≠ some "") (hany : K anyRel)
    {ts ps : List ((String × String) × String)} (hts : GraphPair.alignments g none = .ok ts)
    (hps : GraphPair.alignments h none = .ok ps) (h1 : ∀ x ∈ ts, K x.2) (h2 : ∀ x ∈ ps, K x.2)
    {row : String → Counts} {d : AD String (List Counts)} (hd : Rows K old row d) :
    ∃ d', addPair (g, h) d = .ok d' ∧ Rows K old (plus row (pairDelta N ts ps)) d' := by
  obtain ⟨d1, e1, r1⟩ := forIn_rows (f := addTrue h) (δ := trueDelta N) ts
    (fun x hx row d hd => addTrue_rows hN hne hany (h1 x hx) hd) row d hd
  obtain ⟨d2, e2, r2⟩ := bump_rows r1 hany .true ts.length
  obtain ⟨d3, e3, r3⟩ := forIn_rows (f := fun y d => bump d y.2 .pred 1) (δ := fun y => one y.2 .pred 1) ps
    (fun x hx row d hd => bump_rows hd (h2 x hx) .pred 1) _ d2 r2
  obtain ⟨d4, e4, r4⟩ := bump_rows r3 hany .pred ps.length
  refine ⟨d4, ?_, ?_⟩
  · simp only [addPair, hts, hps, e1, e2, e3, e4, bind, Except.bind]
  · have : plus row (pairDelta N ts ps) =
        plus (plus (plus (plus row (total ts (trueDelta N))) (one anyRel .true ts.length))
          (total ps fun y => one y.2 .pred 1)) (one anyRel .pred ps.length) := by
      unfold pairDelta
      simp only [plus_assoc]
    rwa [this]

/-! ### Cardinalities -/

theorem ncard_list {α β : Type} (l : List (α × β)) (hn : (l.map Prod.fst).Nodup) (p : α × β → Bool) (S : Set α)
    (hS : ∀ a, a ∈ S ↔ ∃ b, (a, b) ∈ l ∧ p (a, b) = true) : S.ncard = (l.filter p).length := by
  classical
  have h1 : S = (((l.filter p).map Prod.fst).toFinset : Set α) := by
    ext a
    rw [hS]
    simp
  rw [h1, Set.ncard_coe_finset, List.toFinset_card_of_nodup, List.length_map]
  exact (List.filter_sublist.map _).nodup hn

theorem sum_ite_eq_length {α : Type} (l : List α) (p : α → Prop) [DecidablePred p] :
    (l.map fun x => if p x then 1 else 0).sum = (l.filter fun x => decide (p x)).length := by
  induction l with
  | nil => rfl
  | cons x l ih =>
    simp only [List.map_cons, List.sum_cons, ih, List.filter_cons]
    by_cases h : p x <;> simp [h, Nat.add_comm]

/-- A duplicate-free list of an alignment. -/
structure Lists (M : Alignment String String) (l : List ((String × String) × String)) : Prop where
  nodup : (l.map Prod.fst).Nodup
  mem : ∀ s t r, ((s, t), r) ∈ l ↔ M s t = some r

theorem Lists.labelled {M : Alignment String String} {l : List ((String × String) × String)} (h : Lists M l) (r : String) :
    labelled M r = (l.filter fun x => decide (x.2 = r)).length := by
  apply ncard_list l h.nodup
  rintro ⟨s, t⟩
  simp only [Set.mem_setOf_eq, decide_eq_true_eq]
  constructor
  · intro hm; exact ⟨r, (h.mem _ _ _).2 hm, rfl⟩
  · rintro ⟨b, h1, rfl⟩; exact (h.mem _ _ _).1 h1

theorem Lists.aligned {M : Alignment String String} {l : List ((String × String) × String)} (h : Lists M l) :
    aligned M = l.length := by
  have : Spec.aligned M = (l.filter fun _ => true).length := by
    apply ncard_list l h.nodup
    rintro ⟨s, t⟩
    simp only [Set.mem_setOf_eq]
    constructor
    · intro hm
      obtain ⟨r, hr⟩ := Option.isSome_iff_exists.1 hm
      exact ⟨r, (h.mem _ _ _).2 hr, trivial⟩
    · rintro ⟨b, h1, -⟩; rw [(h.mem _ _ _).1 h1]; rfl
  simpa using this

theorem Lists.bothLabelled {M N : Alignment String String} {l : List ((String × String) × String)} (h : Lists M l) (r : String) :
    bothLabelled M N r = (l.filter fun x => decide (x.2 = r ∧ N x.1.1 x.1.2 = some x.2)).length := by
  apply ncard_list l h.nodup
  rintro ⟨s, t⟩
  simp only [Set.mem_setOf_eq, decide_eq_true_eq]
  constructor
  · rintro ⟨hm, hn⟩; exact ⟨r, (h.mem _ _ _).2 hm, rfl, hn⟩
  · rintro ⟨b, h1, rfl, h2⟩; exact ⟨(h.mem _ _ _).1 h1, h2⟩

theorem Lists.bothAligned {M N : Alignment String String} {l : List ((String × String) × String)} (h : Lists M l) :
    bothAligned M N = (l.filter fun x => decide ((N x.1.1 x.1.2).isSome = true)).length := by
  apply ncard_list l h.nodup
  rintro ⟨s, t⟩
  simp only [Set.mem_setOf_eq, decide_eq_true_eq]
  constructor
  · rintro ⟨hm, hn⟩
    obtain ⟨r, hr⟩ := Option.isSome_iff_exists.1 hm
    exact ⟨r, (h.mem _ _ _).2 hr, hn⟩
  · rintro ⟨b, h1, h2⟩; exact ⟨by rw [(h.mem _ _ _).1 h1]; rfl, h2⟩

/-- The counts of one pair of graph pairs. -/
noncomputable def pairRow (M N : Alignment String String) : String → Counts := fun r c =>
  match c with
  | .true => if r = anyRel then aligned M else labelled M r
  | .pred => if r = anyRel then aligned N else labelled N r
  | .common => if r = anyRel then bothAligned M N else bothLabelled M N r

theorem pairDelta_row {M N : Alignment String String} {ts ps : List ((String × String) × String)} (h1 : Lists M ts)
    (h2 : Lists N ps) (hM : ∀ s t, M s t ≠ some anyRel) (hN : ∀ s t, N s t ≠ some anyRel) :
    pairDelta N ts ps = pairRow M N := by
  have n1 : ∀ x ∈ ts, x.2 ≠ anyRel := by
    rintro ⟨⟨s, t⟩, r⟩ hx rfl
    exact hM s t ((h1.mem _ _ _).1 hx)
  have n2 : ∀ x ∈ ps, x.2 ≠ anyRel := by
    rintro ⟨⟨s, t⟩, r⟩ hx rfl
    exact hN s t ((h2.mem _ _ _).1 hx)
  have z1 : ∀ (l : List ((String × String) × String)), (∀ x ∈ l, x.2 ≠ anyRel) →
      (l.map fun x => if anyRel = x.2 then 1 else 0).sum = 0 := by
    intro l hl
    apply List.sum_eq_zero
    intro y hy
    obtain ⟨x, hx, rfl⟩ := List.mem_map.1 hy
    rw [if_neg (fun e => hl x hx e.symm)]
  funext r c
  cases c with
  | true =>
    simp only [pairDelta, plus, total, trueDelta, one, pairRow, reduceCtorEq, and_true, and_false, if_false, Nat.add_zero,
      List.map_const', List.sum_replicate, Nat.mul_zero, Nat.zero_add, smul_zero]
    by_cases hr : r = anyRel
    · rw [if_pos hr, if_pos hr, h1.aligned, hr, z1 ts n1]; omega
    · rw [if_neg hr, if_neg hr, h1.labelled, ← sum_ite_eq_length]
      simp only [eq_comm, Nat.add_zero]
  | pred =>
    simp only [pairDelta, plus, total, trueDelta, one, pairRow, reduceCtorEq, and_true, and_false, if_false, Nat.add_zero,
      List.map_const', List.sum_replicate, Nat.mul_zero, Nat.zero_add, smul_zero]
    by_cases hr : r = anyRel
    · rw [if_pos hr, if_pos hr, h2.aligned, hr, z1 ps n2]; omega
    · rw [if_neg hr, if_neg hr, h2.labelled, ← sum_ite_eq_length]
      simp only [eq_comm, Nat.add_zero]
  | common =>
    simp only [pairDelta, plus, total, trueDelta, one, pairRow, reduceCtorEq, and_true, and_false, if_false, Nat.add_zero,
      List.map_const', List.sum_replicate, Nat.mul_zero, Nat.zero_add, smul_zero]
    by_cases hr : r = anyRel
    · rw [if_pos hr, h1.bothAligned, ← sum_ite_eq_length]
      congr 1
      apply List.map_congr_left
      intro x hx
      have hne : ¬ anyRel = x.2 := fun e => n1 x hx e.symm
      subst hr
      simp [hne]
    · rw [if_neg hr, h1.bothLabelled, ← sum_ite_eq_length]
      congr 1
      apply List.map_congr_left
      intro x hx
      rw [if_neg hr, Nat.zero_add]
      by_cases he : r = x.2
      · simp [he]
      · have : ¬ x.2 = r := fun e => he e.symm
        simp [he, this]

/-! ### Adding corpora -/

theorem get?_mapVal {α β : Type} (f : α → β) (d : AD String α) (r : String) :
    (show AD String β from d.map fun x => (x.1, f x.2)).get? r = (d.get? r).map f := by
  induction d with
  | nil => rfl
  | cons x d ih =>
    obtain ⟨k, v⟩ := x
    show AD.get? ((k, f v) :: _) r = _
    rw [AD.get?_cons, AD.get?_cons]
    split
    · rfl
    · exact ih

/-- Tables for the relations `K`. -/
def Tables (K : String → Prop) (rows : String → List Counts) (d : AD String (List Counts)) : Prop :=
  d.WF ∧ ∀ r, (K r → d.get? r = some (rows r)) ∧ (¬ K r → d.get? r = none)

theorem new_tables (rels : List String) : Tables (fun r => r = anyRel ∨ r ∈ rels) (fun _ => []) (new rels).tables := by
  have key : ∀ (l : List String) (d : AD String (List Counts)) (K : String → Prop), Tables K (fun _ => []) d →
      Tables (fun r => K r ∨ r ∈ l) (fun _ => []) (l.foldl (fun d r => d.set r []) d) := by
    intro l
    induction l with
    | nil => intro d K h; simpa using h
    | cons a l ih =>
      intro d K h
      have h1 : Tables (fun r => K r ∨ r = a) (fun _ => []) (d.set a []) := by
        refine ⟨h.1.set _ _, fun r => ?_⟩
        rw [AD.get?_set]
        by_cases hr : r = a
        · simp [hr]
        · simpa [hr] using h.2 r
      have := ih _ _ h1
      simp only [List.foldl_cons]
      refine ⟨this.1, fun r => ?_⟩
      have h2 := this.2 r
      simp only [List.mem_cons, or_assoc] at h2 ⊢
      exact h2
  apply key
  refine ⟨by simp [AD.WF, AD.keys], fun r => ?_⟩
  rw [AD.get?_cons]
  by_cases hr : r = anyRel
  · simp [hr]
  · have : ¬ anyRel = r := fun e => hr e.symm
    simp [hr, this]

/-- The alignments of the graphs of two corpora. -/
structure Pairs (K : String → Prop) (ts ps : List (Graph.G String String)) (ms : List (Alignment String String × Alignment String String)) : Prop where
  lenT : ts.length = ms.length
  lenP : ps.length = ms.length
  each : ∀ x ∈ (ts.zip ps).zip ms, (∃ l, GraphPair.alignments x.1.1 none = .ok l ∧ Lists x.2.1 l) ∧
    (∃ l, GraphPair.alignments x.1.2 none = .ok l ∧ Lists x.2.2 l) ∧
    (∀ s t, GraphPair.getAlign x.1.2 s t = .ok (x.2.2 s t))
  labels : ∀ m ∈ ms, ∀ s t r, (m.1 s t = some r ∨ m.2 s t = some r) → K r ∧ r ≠ anyRel ∧ r ≠ ""

/-- The counts of one corpus pair. -/
noncomputable def corpusRow (ms : List (Alignment String String × Alignment String String)) : String → Counts :=
  total ms fun m => pairRow m.1 m.2

theorem pairs_rows {K : String → Prop} {old : String → List Counts} (hany : K anyRel) :
    ∀ {ts ps : List (Graph.G String String)} {ms : List (Alignment String String × Alignment String String)},
    Pairs K ts ps ms → ∀ {row : String → Counts} {d : AD String (List Counts)}, Rows K old row d →
    ∃ d', Py.forIn (ts.zip ps) d addPair = .ok d' ∧ Rows K old (plus row (corpusRow ms)) d'
  | [], [], [], _, row, d, hd => ⟨d, rfl, by
      have : plus row (corpusRow []) = row := by funext r c; simp [plus, corpusRow, total]
      rwa [this]⟩
  | t :: ts, p :: ps, m :: ms, h, row, d, hd => by
    obtain ⟨⟨l1, e1, L1⟩, ⟨l2, e2, L2⟩, hg⟩ := h.each ((t, p), m) (by simp)
    have hl := h.labels m (by simp)
    obtain ⟨d1, f1, r1⟩ := addPair_rows (K := K) (old := old) hg (fun s t e => (hl s t "" (Or.inr e)).2.2 rfl) hany e1 e2
      (fun x hx => by
        obtain ⟨⟨s, t⟩, r⟩ := x
        exact (hl s t r (Or.inl ((L1.mem _ _ _).1 hx))).1)
      (fun x hx => by
        obtain ⟨⟨s, t⟩, r⟩ := x
        exact (hl s t r (Or.inr ((L2.mem _ _ _).1 hx))).1) hd
    rw [pairDelta_row L1 L2 (fun s t e => (hl s t _ (Or.inl e)).2.1 rfl) (fun s t e => (hl s t _ (Or.inr e)).2.1 rfl)] at r1
    have h' : Pairs K ts ps ms := by
      refine ⟨by simpa using h.lenT, by simpa using h.lenP, fun x hx => h.each x ?_, fun m hm => h.labels m (by simp [hm])⟩
      simp only [List.zip_cons_cons]
      exact List.mem_cons_of_mem _ hx
    obtain ⟨d2, f2, r2⟩ := pairs_rows hany h' r1
    refine ⟨d2, ?_, ?_⟩
    · simp only [List.zip_cons_cons]
      unfold Py.forIn
      rw [f1]; exact f2
    · have : plus row (corpusRow (m :: ms)) = plus (plus row (pairRow m.1 m.2)) (corpusRow ms) := by
        funext r c; simp [plus, corpusRow, total, Nat.add_assoc]
      rwa [this]
  | [], _ :: _, ms, h, _, _, _ => by have h1 := h.lenT; have h2 := h.lenP; rw [← h1] at h2; simp at h2
  | _ :: _, [], ms, h, _, _, _ => by have h1 := h.lenT; have h2 := h.lenP; rw [← h1] at h2; simp at h2
  | _ :: _, _ :: _, [], h, _, _, _ => by have := h.lenT; simp at this
  | [], [], _ :: _, h, _, _, _ => by have := h.lenT; simp at this

/-- The name given to a corpus pair when there are already `n`. -/
def nameOf (n : Nat) (name : Option String) : String :=
  match name with
  | some s => if s = "" then s!"part{n + 1}" else s
  | none => s!"part{n + 1}"

theorem add_tables {K : String → Prop} {rows : String → List Counts} (hany : K anyRel) {e : Eval}
    (he : Tables K rows e.tables) {ts ps : List (Graph.G String String)}
    {ms : List (Alignment String String × Alignment String String)} (h : Pairs K ts ps ms) (name : Option String) :
    ∃ e', add e ts ps name = .ok e' ∧ e'.relations = e.relations ∧
      e'.names = e.names ++ [nameOf (rows anyRel).length name] ∧
      Tables K (fun r => rows r ++ [corpusRow ms r]) e'.tables := by
  have h0 : Rows K rows (fun _ _ => 0)
      (show AD String (List Counts) from e.tables.map fun x => (x.1, x.2 ++ [fun _ => 0])) := by
    refine ⟨?_, fun r => ?_⟩
    · have := he.1
      unfold AD.WF AD.keys at *
      simpa [List.map_map, Function.comp_def] using this
    rw [get?_mapVal (fun l : List Counts => l ++ [fun _ => 0])]
    refine ⟨fun hr => ?_, fun hr => ?_⟩
    · rw [(he.2 r).1 hr]; rfl
    · rw [(he.2 r).2 hr]; rfl
  obtain ⟨d, e1, h1⟩ := pairs_rows hany h h0
  have hz : plus (fun _ _ => 0) (corpusRow ms) = corpusRow ms := by funext r c; simp [plus]
  rw [hz] at h1
  refine ⟨⟨e.relations, e.names ++ [nameOf (rows anyRel).length name], d⟩, ?_, rfl, rfl, h1⟩
  unfold add
  rw [if_neg (by rw [h.lenT, h.lenP]; simp), (he.2 anyRel).1 hany]
  dsimp only
  have e1' : Py.forIn (ts.zip ps) (List.map (fun x => (x.1, x.2 ++ [fun _ => 0])) e.tables) addPair = .ok d := e1
  rw [e1']
  rfl

/-! ### Numbers -/

theorem Lists.le_left {M N : Alignment String String} {l : List ((String × String) × String)} (h : Lists M l) (r : String) :
    Spec.bothLabelled M N r ≤ Spec.labelled M r := by
  rw [h.bothLabelled, h.labelled]
  have : (l.filter fun x => decide (x.2 = r ∧ N x.1.1 x.1.2 = some x.2)) =
      ((l.filter fun x => decide (x.2 = r)).filter fun x => decide (N x.1.1 x.1.2 = some x.2)) := by
    rw [List.filter_filter]
    apply List.filter_congr
    intro x _
    by_cases h1 : x.2 = r <;> by_cases h2 : N x.1.1 x.1.2 = some x.2 <;> simp [h1, h2]
  rw [this]
  exact List.length_filter_le _ _

theorem bothLabelled_comm (M N : Alignment String String) (r : String) : Spec.bothLabelled M N r = Spec.bothLabelled N M r := by
  unfold Spec.bothLabelled; congr 1; ext x; simp [and_comm]

theorem bothAligned_comm (M N : Alignment String String) : Spec.bothAligned M N = Spec.bothAligned N M := by
  unfold Spec.bothAligned; congr 1; ext x; simp [and_comm]

theorem Lists.any_le_left {M N : Alignment String String} {l : List ((String × String) × String)} (h : Lists M l) :
    Spec.bothAligned M N ≤ Spec.aligned M := by
  rw [h.bothAligned, h.aligned]
  exact List.length_filter_le _ _

theorem Lists.aligned_sum {M : Alignment String String} {l : List ((String × String) × String)} (h : Lists M l)
    {rels : List String} (hn : rels.Nodup) (hr : ∀ s t r, M s t = some r → r ∈ rels) :
    Spec.aligned M = (rels.map fun r => Spec.labelled M r).sum := by
  rw [h.aligned]
  simp only [h.labelled]
  have key : ∀ (l : List ((String × String) × String)), (∀ x ∈ l, x.2 ∈ rels) →
      l.length = (rels.map fun r => (l.filter fun x => decide (x.2 = r)).length).sum := by
    intro l
    induction l with
    | nil => intro _; simp
    | cons x l ih =>
      intro hx
      have h1 := ih fun y hy => hx y (by simp [hy])
      have h2 : (rels.map fun r => ((x :: l).filter fun x => decide (x.2 = r)).length) =
          rels.map fun r => (if x.2 = r then 1 else 0) + (l.filter fun x => decide (x.2 = r)).length := by
        apply List.map_congr_left
        intro r _
        by_cases he : x.2 = r <;> simp [List.filter_cons, he, Nat.add_comm]
      rw [h2, List.sum_map_add, ← h1, List.length_cons]
      have h3 : (rels.map fun r => if x.2 = r then 1 else 0).sum = 1 := by
        rw [sum_ite_eq_length, ← List.countP_eq_length_filter]
        have hc : rels.count x.2 = 1 := List.count_eq_one_of_mem hn (hx x (by simp))
        rw [← hc, List.count]
        apply List.countP_congr
        intro r _
        simp only [decide_eq_true_eq, beq_iff_eq]
        exact ⟨Eq.symm, Eq.symm⟩
      omega
  apply key
  rintro ⟨⟨s, t⟩, r⟩ hx
  exact hr s t r ((h.mem _ _ _).1 hx)

end Verif.AlignEval

namespace Verif.AlignEval
open Verif Verif.Spec

theorem catch_div' (a b : ℚ) : Py.catchZeroDiv 0 (Py.div a b) = .ok (a / b) := by
  rw [Py.catch_div]
  split
  · rename_i h; simp [h]
  · rfl

/-- The measures of counts. -/
def measuresOf (beta : ℚ) (c : Counts) : Measures
  | .prec => precisionOf (c .pred) (c .common)
  | .recall => recallOf (c .true) (c .common)
  | .f => fOf beta (precisionOf (c .pred) (c .common)) (recallOf (c .true) (c .common))

theorem evalCounts_eq {beta : ℚ} (h : 0 ≤ beta ∧ beta ≤ 1) (c : Counts) : evalCounts beta c = .ok (measuresOf beta c) := by
  simp only [evalCounts, precision, recall, fScore, if_pos h, catch_div', bind, Except.bind, pure, Except.pure]
  congr 1

/-- The statistics of a table. -/
def statsOf (t : List Counts) : TableStats :=
  let sum : Count → Nat := fun c => (t.map fun x => x c).sum
  let countMean : Count → ℚ := fun c => meanOf (t.map fun x => (x c : ℚ))
  let macroMean : Measure → ℚ := fun m => meanOf (t.map fun x => measuresOf 1 x m)
  let microMean := measuresOf 1 sum
  ⟨t.map (measuresOf 1), sum, countMean, fun c => varOf (t.map fun x => (x c : ℚ)) (countMean c), macroMean,
    fun m => varOf (t.map fun x => measuresOf 1 x m) (macroMean m), microMean,
    fun m => varOf (t.map fun x => measuresOf 1 x m) (microMean m)⟩

theorem perCount_ok {α : Type} {f : Count → Py α} {g : Count → α} (h : ∀ c, f c = .ok (g c)) : perCount f = .ok g := by
  simp only [perCount, h, bind, Except.bind, pure, Except.pure]
  congr 1; funext c; cases c <;> rfl

theorem perMeasure_ok {α : Type} {f : Measure → Py α} {g : Measure → α} (h : ∀ c, f c = .ok (g c)) :
    perMeasure f = .ok g := by
  simp only [perMeasure, h, bind, Except.bind, pure, Except.pure]
  congr 1; funext c; cases c <;> rfl

theorem variance_eq (l : List ℚ) (m : ℚ) : variance l m = .ok (varOf l m) := by
  rw [variance, catch_div', varOf]

theorem mapM_eq {α β : Type} {f : α → Py β} {g : α → β} : ∀ (l : List α), (∀ x ∈ l, f x = .ok (g x)) →
    l.mapM f = .ok (l.map g)
  | [], _ => rfl
  | x :: l, h => by
    rw [List.mapM_cons, h x (by simp), mapM_eq l fun y hy => h y (by simp [hy])]
    rfl

theorem beta_one : (0 : ℚ) ≤ 1 ∧ (1 : ℚ) ≤ 1 := by constructor <;> norm_num

theorem div_length {α : Type} {t : List α} (ht : t ≠ []) (a : ℚ) : Py.div a t.length = .ok (a / t.length) := by
  have : (t.length : ℚ) ≠ 0 := by
    have : t.length ≠ 0 := by simpa using ht
    exact_mod_cast this
  simp [Py.div, this]

theorem cast_sum (t : List Counts) (c : Count) :
    (((t.map fun x => x c).sum : Nat) : ℚ) = (t.map fun x => (x c : ℚ)).sum := by
  induction t with
  | nil => simp
  | cons x t ih => simp [ih]

theorem evalTable_eq {t : List Counts} (ht : t ≠ []) : evalTable t = .ok (statsOf t) := by
  have h1 : t.mapM (evalCounts 1) = .ok (t.map (measuresOf 1)) := mapM_eq t fun x _ => evalCounts_eq beta_one x
  have h2 : ∀ c : Count, (((t.map fun x => x c).sum : Nat) : ℚ) = (t.map fun x => (x c : ℚ)).sum := fun c => cast_sum t c
  unfold evalTable
  rw [h1]
  have h3 : (perCount fun c => Py.div (((t.map fun x => x c).sum : Nat) : ℚ) t.length) =
      .ok fun c => meanOf (t.map fun x => (x c : ℚ)) := perCount_ok fun c => by
    rw [div_length ht, meanOf, h2, List.length_map]
  have h4 : (perCount fun c => variance (t.map fun x => (x c : ℚ)) (meanOf (t.map fun x => (x c : ℚ)))) =
      .ok fun c => varOf (t.map fun x => (x c : ℚ)) (meanOf (t.map fun x => (x c : ℚ))) :=
    perCount_ok fun c => variance_eq _ _
  have h5 : (perMeasure fun m => Py.div ((t.map (measuresOf 1)).map fun x => x m).sum t.length) =
      .ok fun m => meanOf (t.map fun x => measuresOf 1 x m) := perMeasure_ok fun m => by
    rw [div_length ht, meanOf, List.length_map, List.map_map]; rfl
  have h6 : ∀ f : Measure → ℚ, (perMeasure fun m => variance ((t.map (measuresOf 1)).map fun x => x m) (f m)) =
      .ok fun m => varOf (t.map fun x => measuresOf 1 x m) (f m) := fun f => perMeasure_ok fun m => by
    rw [variance_eq, List.map_map]; rfl
  simp only [bind, Except.bind, h3, h4, h5, h6, evalCounts_eq beta_one]
  rfl

theorem evalTable_nil : evalTable [] = .error .zeroDivision := by
  simp [evalTable, perCount, Py.div, bind, Except.bind, pure, Except.pure]

/-! ### All tables -/

/-- The results for relations `rels`. -/
def allStats (rels : List String) (rows : String → List Counts) (tables : AD String TableStats) : EvalStats :=
  let sum : Count → Nat := fun c => (rels.map fun r => ((rows r).map fun x => x c).sum).sum
  ⟨tables, sum, fun m => meanOf (rels.map fun r => measuresOf 1 (fun c => ((rows r).map fun x => x c).sum) m),
    measuresOf 1 sum⟩

theorem runEval_eq {rels : List String} {rows : String → List Counts} {e : Eval} (hr : e.relations = rels)
    (hn : rels.Nodup) (h0 : rels ≠ []) (he : Tables (fun r => r = anyRel ∨ r ∈ rels) rows e.tables)
    (hne : ∀ r, rows r ≠ []) :
    ∃ tables, runEval e = .ok (allStats rels rows tables) ∧
      ∀ r, (r = anyRel ∨ r ∈ rels → tables.get? r = some (statsOf (rows r))) := by
  have h1 : (e.tables.mapM fun x => do let t ← evalTable x.2; return (x.1, t)) =
      .ok (e.tables.map fun x => (x.1, statsOf x.2)) := by
    apply mapM_eq
    rintro ⟨k, v⟩ hx
    have hg := AD.get?_of_mem he.1 hx
    by_cases hk : k = anyRel ∨ k ∈ rels
    · rw [(he.2 k).1 hk] at hg
      obtain rfl := Option.some.inj hg
      dsimp only
      rw [evalTable_eq (hne k)]
      rfl
    · rw [(he.2 k).2 hk] at hg; cases hg
  have h2 : ∀ r, (r = anyRel ∨ r ∈ rels) →
      (show AD String TableStats from e.tables.map fun x => (x.1, statsOf x.2)).get? r = some (statsOf (rows r)) := by
    intro r h
    rw [get?_mapVal statsOf, (he.2 r).1 h]; rfl
  have h3 : ∀ l : List String, (∀ r ∈ l, r ∈ rels) →
      select (e.tables.map fun x => (x.1, statsOf x.2)) l = .ok (l.map fun r => statsOf (rows r)) := by
    intro l hl
    apply mapM_eq
    intro r hr
    exact AD.get_eq (h2 r (Or.inr (hl r hr)))
  have h4 : rels.take e.tables.length = rels := by
    apply List.take_of_length_le
    have hsub : rels ⊆ e.tables.keys := by
      intro r h
      rw [AD.mem_keys_iff, (he.2 r).1 (Or.inr h)]; rfl
    have := (List.subperm_of_subset hn hsub).length_le
    simpa [AD.keys] using this
  refine ⟨_, ?_, h2⟩
  have h5 : (perMeasure fun m => Py.div ((rels.map fun r => statsOf (rows r)).map fun t => t.microMean m).sum rels.length) =
      .ok fun m => meanOf (rels.map fun r => measuresOf 1 (fun c => ((rows r).map fun x => x c).sum) m) :=
    perMeasure_ok fun m => by
      rw [div_length h0, meanOf, List.length_map, List.map_map]; rfl
  unfold runEval
  rw [h1, hr, h4]
  simp only [bind, Except.bind, h3 rels fun _ h => h, h5, evalCounts_eq beta_one, pure, Except.pure]
  simp only [allStats, List.map_map]
  rfl

theorem runEval_empty {K : String → Prop} {rows : String → List Counts} {e : Eval} (he : Tables K rows e.tables)
    (ha : K anyRel) (h0 : ∀ r, rows r = []) : runEval e = .error .zeroDivision := by
  unfold runEval
  have hne : e.tables ≠ [] := by
    intro h
    have := (he.2 anyRel).1 ha
    rw [h] at this
    cases this
  cases ht : e.tables with
  | nil => exact absurd ht hne
  | cons x l =>
    have hg := AD.get?_of_mem (k := x.1) (v := x.2) he.1 (by rw [ht]; simp)
    have hx : x.2 = [] := by
      by_cases hk : K x.1
      · rw [(he.2 x.1).1 hk, h0] at hg; exact (Option.some.inj hg).symm
      · rw [(he.2 x.1).2 hk] at hg; cases hg
    simp [List.mapM_cons, hx, evalTable_nil, bind, Except.bind]

theorem runEval_none {rows : String → List Counts} {e : Eval} (hr : e.relations = [])
    (he : Tables (fun r => r = anyRel) rows e.tables) : runEval e = .error .zeroDivision := by
  have h0 : ∀ x ∈ e.tables, x.2 = rows anyRel := by
    rintro ⟨k, v⟩ hx
    have hg := AD.get?_of_mem he.1 hx
    by_cases hk : k = anyRel
    · rw [(he.2 k).1 hk] at hg
      rw [← hk]
      exact (Option.some.inj hg).symm
    · rw [(he.2 k).2 hk] at hg; cases hg
  unfold runEval
  by_cases hn : rows anyRel = []
  · have hne : e.tables ≠ [] := by
      intro h
      have := (he.2 anyRel).1 rfl
      rw [h] at this
      cases this
    cases ht : e.tables with
    | nil => exact absurd ht hne
    | cons x l =>
      have : x.2 = [] := (h0 x (by simp [ht])).trans hn
      simp [List.mapM_cons, this, evalTable_nil, bind, Except.bind]
  · have h1 : (e.tables.mapM fun x => do let t ← evalTable x.2; return (x.1, t)) =
        .ok (e.tables.map fun x => (x.1, statsOf x.2)) := by
      apply mapM_eq
      intro x hx
      rw [h0 x hx, evalTable_eq hn]
      rfl
    rw [h1, hr]
    simp [bind, Except.bind, select, perMeasure, Py.div, pure, Except.pure]

/-! ### Unknown relations -/

theorem forIn_key {α : Type} {f : α → AD String (List Counts) → Py (AD String (List Counts))} {good : α → Prop} :
    ∀ (l : List α), (∀ x ∈ l, good x → ∀ row d, Rows K old row d → ∃ d' row', f x d = .ok d' ∧ Rows K old row' d') →
    (∀ x ∈ l, ¬ good x → ∀ row d, Rows K old row d → f x d = .error .keyError) →
    ∀ (row : String → Counts) (d : AD String (List Counts)), Rows K old row d →
      ((∀ x ∈ l, good x) → ∃ d' row', Py.forIn l d f = .ok d' ∧ Rows K old row' d') ∧
      ((∃ x ∈ l, ¬ good x) → Py.forIn l d f = .error .keyError)
  | [], _, _, row, d, h => ⟨fun _ => ⟨d, row, rfl, h⟩, fun h => by simp at h⟩
  | x :: l, h1, h2, row, d, h => by
    unfold Py.forIn
    by_cases hx : good x
    · obtain ⟨d1, row1, e1, r1⟩ := h1 x (by simp) hx row d h
      have ih := forIn_key l (fun y hy => h1 y (by simp [hy])) (fun y hy => h2 y (by simp [hy])) row1 d1 r1
      rw [e1]
      refine ⟨fun hg => ih.1 fun y hy => hg y (by simp [hy]), ?_⟩
      rintro ⟨y, hy, hb⟩
      rcases List.mem_cons.1 hy with rfl | hy
      · exact absurd hx hb
      · exact ih.2 ⟨y, hy, hb⟩
    · rw [h2 x (by simp) hx row d h]
      exact ⟨fun hg => absurd (hg x (by simp)) hx, fun _ => rfl⟩

theorem bump_key {row : String → Counts} {d : AD String (List Counts)} (h : Rows K old row d) {r : String} (hr : ¬ K r)
    (c : Count) (n : Nat) : bump d r c n = .error .keyError := by
  simp [bump, (h.2 r).2 hr]

theorem addTrue_key {g : Graph.G String String} {x : (String × String) × String} (hx : ¬ K x.2) {row : String → Counts}
    {d : AD String (List Counts)} (h : Rows K old row d) : addTrue g x d = .error .keyError := by
  unfold addTrue
  rw [bump_key h hx]; rfl

theorem addTrue_some {g : Graph.G String String} {N : Alignment String String}
    (hg : ∀ s t, GraphPair.getAlign g s t = .ok (N s t)) (hany : K anyRel)
    {x : (String × String) × String} (hx : K x.2) {row : String → Counts} {d : AD String (List Counts)}
    (h : Rows K old row d) : ∃ d' row', addTrue g x d = .ok d' ∧ Rows K old row' d' := by
  obtain ⟨d1, e1, h1⟩ := bump_rows h hx .true 1
  unfold addTrue
  simp only [e1, hg, bind, Except.bind]
  cases hn : N x.1.1 x.1.2 with
  | none => exact ⟨d1, _, rfl, h1⟩
  | some r =>
    by_cases hne : r = ""
    · simp only [hne, if_true]
      exact ⟨d1, _, rfl, h1⟩
    · obtain ⟨d2, e2, h2⟩ := bump_rows h1 hany .common 1
      simp only [hne, if_false, e2]
      by_cases hr : r = x.2
      · obtain ⟨d3, e3, h3⟩ := bump_rows h2 hx .common 1
        simp only [hr, if_true, e3]
        exact ⟨d3, _, rfl, h3⟩
      · simp only [hr, if_false]
        exact ⟨d2, _, rfl, h2⟩

theorem addPair_some {g h : Graph.G String String} {N : Alignment String String}
    (hN : ∀ s t, GraphPair.getAlign h s t = .ok (N s t)) (hany : K anyRel)
    {ts ps : List ((String × String) × String)} (hts : GraphPair.alignments g none = .ok ts)
    (hps : GraphPair.alignments h none = .ok ps) (h1 : ∀ x ∈ ts, K x.2) (h2 : ∀ x ∈ ps, K x.2)
    {row : String → Counts} {d : AD String (List Counts)} (hd : Rows K old row d) :
    ∃ d' row', addPair (g, h) d = .ok d' ∧ Rows K old row' d' := by
  obtain ⟨d1, row1, e1, r1⟩ := (forIn_key (K := K) (old := old) (f := addTrue h) (good := fun _ => True) ts
    (fun x hx _ row d hd => addTrue_some hN hany (h1 x hx) hd) (fun x _ hx => absurd trivial hx) row d hd).1 fun _ _ => trivial
  obtain ⟨d2, e2, r2⟩ := bump_rows r1 hany .true ts.length
  obtain ⟨d3, e3, r3⟩ := forIn_rows (f := fun y d => bump d y.2 .pred 1) (δ := fun y => one y.2 .pred 1) ps
    (fun x hx row d hd => bump_rows hd (h2 x hx) .pred 1) _ d2 r2
  obtain ⟨d4, e4, r4⟩ := bump_rows r3 hany .pred ps.length
  refine ⟨d4, _, ?_, r4⟩
  simp only [addPair, hts, hps, e1, e2, e3, e4, bind, Except.bind]

theorem addPair_key {g h : Graph.G String String} {N : Alignment String String}
    (hN : ∀ s t, GraphPair.getAlign h s t = .ok (N s t)) (hany : K anyRel)
    {ts ps : List ((String × String) × String)} (hts : GraphPair.alignments g none = .ok ts)
    (hps : GraphPair.alignments h none = .ok ps) {row : String → Counts} {d : AD String (List Counts)}
    (hd : Rows K old row d) (hbad : ∃ x, (x ∈ ts ∨ x ∈ ps) ∧ ¬ K x.2) : addPair (g, h) d = .error .keyError := by
  have h1 := forIn_key (K := K) (old := old) (f := addTrue h) (good := fun x => K x.2) ts
    (fun x _ hx row d hd => addTrue_some hN hany hx hd)
    (fun x _ hx row d hd => addTrue_key hx hd) row d hd
  unfold addPair
  rw [hts, hps]
  by_cases hb : ∃ x ∈ ts, ¬ K x.2
  · simp only [bind, Except.bind, h1.2 hb]
  · push Not at hb
    obtain ⟨d1, row1, e1, r1⟩ := h1.1 hb
    obtain ⟨d2, e2, r2⟩ := bump_rows r1 hany .true ts.length
    have h2 := forIn_key (K := K) (old := old) (f := fun y d => bump d y.2 .pred 1) (good := fun x => K x.2) ps
      (fun x _ hx row d hd => by
        obtain ⟨d', e, r⟩ := bump_rows hd hx .pred 1
        exact ⟨d', _, e, r⟩)
      (fun x _ hx row d hd => bump_key hd hx _ _) _ d2 r2
    have hb' : ∃ x ∈ ps, ¬ K x.2 := by
      obtain ⟨x, h | h, hk⟩ := hbad
      · exact absurd (hb x h) hk
      · exact ⟨x, h, hk⟩
    simp only [bind, Except.bind, e1, e2, h2.2 hb']

theorem add_key {K : String → Prop} {rows : String → List Counts} (hany : K anyRel) {e : Eval}
    (he : Tables K rows e.tables) {ts ps : List (Graph.G String String)}
    {ms : List (Alignment String String × Alignment String String)} (hlen : ts.length = ps.length)
    (hm : ts.length = ms.length)
    (each : ∀ x ∈ (ts.zip ps).zip ms, (∃ l, GraphPair.alignments x.1.1 none = .ok l ∧ Lists x.2.1 l) ∧
      (∃ l, GraphPair.alignments x.1.2 none = .ok l ∧ Lists x.2.2 l) ∧
      (∀ s t, GraphPair.getAlign x.1.2 s t = .ok (x.2.2 s t)))
    (hbad : ∃ m ∈ ms, ∃ s t r, (m.1 s t = some r ∨ m.2 s t = some r) ∧ ¬ K r) (name : Option String) :
    add e ts ps name = .error .keyError := by
  have h0 : Rows K rows (fun _ _ => 0)
      (show AD String (List Counts) from e.tables.map fun x => (x.1, x.2 ++ [fun _ => 0])) := by
    refine ⟨?_, fun r => ?_⟩
    · have := he.1
      unfold AD.WF AD.keys at *
      simpa [List.map_map, Function.comp_def] using this
    rw [get?_mapVal (fun l : List Counts => l ++ [fun _ => 0])]
    refine ⟨fun hr => ?_, fun hr => ?_⟩
    · rw [(he.2 r).1 hr]; rfl
    · rw [(he.2 r).2 hr]; rfl
  have key : ∀ {ts ps : List (Graph.G String String)} {ms : List (Alignment String String × Alignment String String)},
      ts.length = ps.length → ts.length = ms.length →
      (∀ x ∈ (ts.zip ps).zip ms, (∃ l, GraphPair.alignments x.1.1 none = .ok l ∧ Lists x.2.1 l) ∧
        (∃ l, GraphPair.alignments x.1.2 none = .ok l ∧ Lists x.2.2 l) ∧
        (∀ s t, GraphPair.getAlign x.1.2 s t = .ok (x.2.2 s t))) →
      (∃ m ∈ ms, ∃ s t r, (m.1 s t = some r ∨ m.2 s t = some r) ∧ ¬ K r) →
      ∀ {row : String → Counts} {d : AD String (List Counts)}, Rows K rows row d →
      Py.forIn (ts.zip ps) d addPair = .error .keyError := by
    intro ts
    induction ts with
    | nil =>
      intro ps ms _ h2 _ h4
      obtain ⟨m, hm, -⟩ := h4
      cases ms with
      | nil => simp at hm
      | cons _ _ => simp at h2
    | cons t ts ih =>
      intro ps ms h1 h2 h3 h4 row d hd
      match ps, ms, h1, h2 with
      | p :: ps, m :: ms, h1, h2 =>
        obtain ⟨⟨l1, e1, L1⟩, ⟨l2, e2, L2⟩, hg⟩ := h3 ((t, p), m) (by simp)
        simp only [List.zip_cons_cons]
        unfold Py.forIn
        by_cases hb : ∃ s t r, (m.1 s t = some r ∨ m.2 s t = some r) ∧ ¬ K r
        · rw [addPair_key hg hany e1 e2 hd]
          obtain ⟨s, t, r, h | h, hk⟩ := hb
          · exact ⟨((s, t), r), Or.inl ((L1.mem _ _ _).2 h), hk⟩
          · exact ⟨((s, t), r), Or.inr ((L2.mem _ _ _).2 h), hk⟩
        · push Not at hb
          obtain ⟨d1, row1, f1, r1⟩ := addPair_some (K := K) (old := rows) hg hany e1 e2
            (fun x hx => hb x.1.1 x.1.2 x.2 (Or.inl ((L1.mem _ _ _).1 hx)))
            (fun x hx => hb x.1.1 x.1.2 x.2 (Or.inr ((L2.mem _ _ _).1 hx))) hd
          rw [f1]
          refine ih (ms := ms) (by simpa using h1) (by simpa using h2) (fun x hx => h3 x ?_) ?_ r1
          · simp only [List.zip_cons_cons]
            exact List.mem_cons_of_mem _ hx
          · obtain ⟨m', hm, s, t, r, hr, hk⟩ := h4
            rcases List.mem_cons.1 hm with rfl | hm
            · exact absurd (hb s t r hr) hk
            · exact ⟨m', hm, s, t, r, hr, hk⟩
  unfold add
  rw [if_neg (by simp [hlen]), (he.2 anyRel).1 hany]
  dsimp only
  have e1' : Py.forIn (ts.zip ps) (List.map (fun x => (x.1, x.2 ++ [fun _ => 0])) e.tables) addPair = .error .keyError :=
    key hlen hm each hbad h0
  rw [e1']
  rfl

theorem Lists.common_sum {M N : Alignment String String} {l : List ((String × String) × String)} (h : Lists M l)
    {rels : List String} (hn : rels.Nodup) (hr : ∀ s t r, M s t = some r → r ∈ rels) :
    (rels.map fun r => Spec.bothLabelled M N r).sum ≤ Spec.bothAligned M N := by
  let M' : Alignment String String := fun s t => if N s t = M s t then M s t else none
  have hM' : ∀ s t r, M' s t = some r ↔ M s t = some r ∧ N s t = some r := by
    intro s t r
    simp only [M']
    by_cases he : N s t = M s t
    · simp [he]
    · simp only [he, if_false, reduceCtorEq, false_iff]
      rintro ⟨h1, h2⟩
      exact he (h2.trans h1.symm)
  have L : Lists M' (l.filter fun x => decide (N x.1.1 x.1.2 = some x.2)) := by
    refine ⟨(List.filter_sublist.map _).nodup h.nodup, fun s t r => ?_⟩
    rw [List.mem_filter, h.mem, hM']
    simp
  have h1 : (rels.map fun r => Spec.bothLabelled M N r) = rels.map fun r => Spec.labelled M' r := by
    apply List.map_congr_left
    intro r _
    unfold Spec.bothLabelled Spec.labelled
    congr 1
    ext x
    simp [hM']
  rw [h1, ← L.aligned_sum hn fun s t r e => hr s t r ((hM' s t r).1 e).1, L.aligned, h.bothAligned]
  have h2 : (l.filter fun x => decide (N x.1.1 x.1.2 = some x.2)) =
      ((l.filter fun x => decide ((N x.1.1 x.1.2).isSome = true)).filter fun x => decide (N x.1.1 x.1.2 = some x.2)) := by
    rw [List.filter_filter]
    apply List.filter_congr
    intro x _
    by_cases h1 : N x.1.1 x.1.2 = some x.2 <;> simp [h1]
  rw [h2]
  exact List.length_filter_le _ _

end Verif.AlignEval
