import Verif.Lemmas.Base
import Verif.Model.PtcEval
import Verif.Spec.PtcEval
import Verif.Props.HitaextDoc

/-! Property C63 (lib/daeso/ptc/evaluate.py). -/
namespace Verif.Props.PtcEval
open Verif Verif.Spec Verif.HitaextDoc Verif.PtcEval

/-- A row says this about sets of true and predicted alignments, as to their sizes. -/
structure Says (r : Row) (nTrue nPred nCommon : Nat) : Prop where
  true' : r.nTrue = nTrue
  pred : r.nPred = nPred
  common : r.nCommon = nCommon
  ratio : r.ratio = (nPred : ℚ) / nTrue
  precision : r.precision = precisionOf nPred nCommon
  recall : r.recall = recallOf nTrue nCommon
  f : r.f = fOf 1 (precisionOf nPred nCommon) (recallOf nTrue nCommon)

private theorem collect_spec (tag : String) (links : List Link) (s : List Ids) (hs : s.Nodup) :
    (links.foldl (collect tag) s).Nodup ∧ ∀ x, x ∈ links.foldl (collect tag) s ↔
      x ∈ s ∨ ∃ l ∈ links, l.fromTag = some tag ∧ l.toTag = some tag ∧ l.fromId = x.1 ∧ l.toId = x.2 := by
  induction links generalizing s with
  | nil => simp [hs]
  | cons l links ih =>
    rw [List.foldl_cons]
    have hc : (collect tag s l).Nodup ∧ ∀ x, x ∈ collect tag s l ↔
        x ∈ s ∨ (l.fromTag = some tag ∧ l.toTag = some tag ∧ l.fromId = x.1 ∧ l.toId = x.2) := by
      unfold collect
      split
      next h =>
        split
        next hm =>
          refine ⟨hs, fun x => ⟨Or.inl, ?_⟩⟩
          rintro (h1 | ⟨-, -, h1, h2⟩)
          · exact h1
          · rw [h1, h2] at hm; exact hm
        next hm =>
          refine ⟨List.nodup_append.2 ⟨hs, by simp, by rintro a ha b hb rfl; simp at hb; exact hm (hb ▸ ha)⟩, fun x => ?_⟩
          simp only [List.mem_append, List.mem_singleton, Prod.ext_iff, h, true_and]
          constructor
          · rintro (h1 | ⟨h1, h2⟩)
            · exact Or.inl h1
            · exact Or.inr ⟨h1.symm, h2.symm⟩
          · rintro (h1 | ⟨h1, h2⟩)
            · exact Or.inl h1
            · exact Or.inr ⟨h1.symm, h2.symm⟩
      next h =>
        refine ⟨hs, fun x => ⟨Or.inl, ?_⟩⟩
        rintro (h1 | ⟨h1, h2, -⟩)
        · exact h1
        · exact absurd ⟨h1, h2⟩ h
    obtain ⟨h1, h2⟩ := ih _ hc.1
    refine ⟨h1, fun x => ?_⟩
    rw [h2, hc.2]
    simp [or_assoc]

private theorem getAlignment_spec (d : Hitaext) (tag : String) :
    (getAlignment d tag).Nodup ∧ ∀ x, x ∈ getAlignment d tag ↔ x ∈ linked d tag := by
  obtain ⟨h1, h2⟩ := collect_spec tag d.links [] List.nodup_nil
  exact ⟨h1, fun x => (h2 x).trans (by simp [linked])⟩

private theorem ncard_of {α : Type} [DecidableEq α] {l : List α} {s : Set α} (hn : l.Nodup) (h : ∀ x, x ∈ l ↔ x ∈ s) :
    s.ncard = l.length := by
  have : s = (l.toFinset : Set α) := by ext x; simp [h]
  rw [this, Set.ncard_coe_finset, List.toFinset_card_of_nodup hn]

/-- The set of alignments of a document is finite. -/
theorem linked_finite (d : Hitaext) (tag : String) : (linked d tag).Finite := by
  have : linked d tag = ((getAlignment d tag).toFinset : Set _) := by
    ext x; simp [(getAlignment_spec d tag).2]
  rw [this]; exact Finset.finite_toSet _

/-- C63.  The three numbers are those of the different pairs of ids that are aligned with this tag on both sides: in the
true corpus, in the predicted corpus, and in both. -/
theorem count_exact (t p : Hitaext) (tag : String) : countAlignment t p tag =
    ((linked t tag).ncard, (linked p tag).ncard, (linked t tag ∩ linked p tag).ncard) := by
  obtain ⟨h1, h2⟩ := getAlignment_spec t tag
  obtain ⟨h3, h4⟩ := getAlignment_spec p tag
  unfold countAlignment
  rw [ncard_of h1 h2, ncard_of h3 h4, ncard_of (h1.filter fun x => x ∈ getAlignment p tag)]
  intro x
  simp [h2, h4]

/-- C63.  The order of the links and repeated links make no difference. -/
theorem count_set (t t' p p' : Hitaext) (tag : String) (ht : ∀ l, l ∈ t.links ↔ l ∈ t'.links)
    (hp : ∀ l, l ∈ p.links ↔ l ∈ p'.links) : countAlignment t p tag = countAlignment t' p' tag := by
  have e : ∀ {d d' : Hitaext}, (∀ l, l ∈ d.links ↔ l ∈ d'.links) → linked d tag = linked d' tag := by
    intro d d' h
    ext x
    simp [linked, h]
  rw [count_exact, count_exact, e ht, e hp]

private theorem scores (a b c : Nat) : ∃ r, computeScores a b c = .ok r ∧ Says r a b c := by
  unfold computeScores
  simp only [Py.catch_div, bind, Except.bind]
  have hd : ∀ x y : ℚ, (if y = 0 then 0 else x / y) = x / y := by
    intro x y
    split
    next h => rw [h, div_zero]
    next => rfl
  refine ⟨_, rfl, rfl, rfl, rfl, hd _ _, hd _ _, hd _ _, ?_⟩
  show (if _ = (0 : ℚ) then 0 else _ / _) = _
  rw [hd, hd, hd]
  unfold fOf precisionOf recallOf
  ring_nf

/-- The name of a file: the path, or what follows the last slash. -/
def FileName (path name : String) : Prop :=
  '/' ∉ name.toList ∧ (path.toList = name.toList ∨ ∃ dir, path.toList = dir ++ '/' :: name.toList)

/-- The row of two documents. -/
def RowFor (r : Row) (t p : Hitaext) (tag : String) : Prop :=
  Says r (linked t tag).ncard (linked p tag).ncard (linked t tag ∩ linked p tag).ncard

private theorem eval_core (read : String → Py Hitaext) (doc : String → Hitaext) (pairs : List (String × String))
    (tag : String) (labels : Option (List String))
    (hr : ∀ x ∈ pairs.zip (labelsOf pairs labels), read x.1.1 = .ok (doc x.1.1) ∧ read x.1.2 = .ok (doc x.1.2)) :
    ∃ rows last, evalAlignment read pairs tag labels = .ok (rows, last) ∧
      List.Forall₂ (fun x row => RowFor row.1 (doc x.1.1) (doc x.1.2) tag ∧ row.2 = x.2)
        (pairs.zip (labelsOf pairs labels)) rows ∧
      Says last (rows.map fun r => r.1.nTrue).sum (rows.map fun r => r.1.nPred).sum
        (rows.map fun r => r.1.nCommon).sum := by
  obtain ⟨s, h1, h2, h3⟩ := Py.forIn_inv (f := evalPair read tag) (l := pairs.zip (labelsOf pairs labels))
    (s := ((0, 0, 0), []))
    (fun pre s => List.Forall₂ (fun x (row : Row × String) => RowFor row.1 (doc x.1.1) (doc x.1.2) tag ∧ row.2 = x.2) pre s.2 ∧
      s.1 = ((s.2.map fun r => r.1.nTrue).sum, (s.2.map fun r => r.1.nPred).sum, (s.2.map fun r => r.1.nCommon).sum))
    ⟨.nil, rfl⟩ (by
      intro pre x suf s hl hp
      obtain ⟨hx, hy⟩ := hr x (by rw [hl]; simp)
      obtain ⟨r, e1, e2⟩ := scores (linked (doc x.1.1) tag).ncard (linked (doc x.1.2) tag).ncard
        (linked (doc x.1.1) tag ∩ linked (doc x.1.2) tag).ncard
      refine ⟨_, by simp only [evalPair, hx, hy, count_exact, e1, bind, Except.bind]; rfl, ?_, ?_⟩
      · exact List.rel_append hp.1 (.cons ⟨e2, rfl⟩ .nil)
      · simp [hp.2, e2.true', e2.pred, e2.common])
  obtain ⟨r, e1, e2⟩ := scores s.1.1 s.1.2.1 s.1.2.2
  refine ⟨s.2, r, by simp only [evalAlignment, h1, e1, bind, Except.bind]; rfl, h2, ?_⟩
  rw [h3] at e2
  exact e2

/-- C63.  With labels, when every file that has a label can be read: there is one row for every pair of files and
label, in order, with the counts and scores of these two documents, and the last row has the sums of their counts and the
scores of these sums. -/
theorem eval_labelled (read : String → Py Hitaext) (doc : String → Hitaext) (pairs : List (String × String)) (tag : String)
    (labels : List String) (hl : labels ≠ [])
    (hr : ∀ x ∈ pairs.take labels.length, read x.1 = .ok (doc x.1) ∧ read x.2 = .ok (doc x.2)) :
    ∃ rows last, evalAlignment read pairs tag (some labels) = .ok (rows, last) ∧
      List.Forall₂ (fun x row => RowFor row.1 (doc x.1.1) (doc x.1.2) tag ∧ row.2 = x.2) (pairs.zip labels) rows ∧
      Says last (rows.map fun r => r.1.nTrue).sum (rows.map fun r => r.1.nPred).sum
        (rows.map fun r => r.1.nCommon).sum := by
  have e : labelsOf pairs (some labels) = labels := by cases labels <;> simp_all [labelsOf]
  have := eval_core read doc pairs tag (some labels) (by
    rw [e]
    intro x hx
    refine hr x.1 ?_
    rw [List.mem_iff_getElem?] at hx ⊢
    obtain ⟨i, hi⟩ := hx
    rw [List.getElem?_zip_eq_some] at hi
    refine ⟨i, ?_⟩
    rw [List.getElem?_take_of_lt (List.getElem?_eq_some_iff.1 hi.2).1, hi.1])
  rwa [e] at this

private theorem basename_spec (p : String) : FileName p (basename p) := by
  unfold basename FileName
  have h := List.takeWhile_append_dropWhile (p := fun c => decide (c ≠ '/')) (l := p.toList.reverse)
  have hall : ∀ c ∈ p.toList.reverse.takeWhile (fun c => decide (c ≠ '/')), c ≠ '/' := by
    intro c hc
    simpa using List.all_eq_true.1 (List.all_takeWhile (p := fun c => decide (c ≠ '/'))) c hc
  refine ⟨by simpa using fun h => hall _ h rfl, ?_⟩
  have h' := congrArg List.reverse h
  rw [List.reverse_append, List.reverse_reverse] at h'
  cases hd : p.toList.reverse.dropWhile (fun c => decide (c ≠ '/')) with
  | nil =>
    left
    rw [hd] at h'
    simp at h' ⊢
    rw [h']
  | cons c l =>
    right
    have hc : c = '/' := by
      have := List.head_dropWhile_not (p := fun c => decide (c ≠ '/')) (l := p.toList.reverse) (by rw [hd]; simp)
      simp only [hd] at this
      exact not_not.1 (of_decide_eq_false this)
    refine ⟨l.reverse, ?_⟩
    rw [hd, hc] at h'
    simp at h' ⊢
    exact h'.symm

/-- C63.  Without labels, or with an empty list of labels, there is one row for every pair of files, labelled with the
name of the predicted file. -/
theorem eval_unlabelled (read : String → Py Hitaext) (doc : String → Hitaext) (pairs : List (String × String)) (tag : String)
    (labels : Option (List String)) (hl : labels = none ∨ labels = some [])
    (hr : ∀ x ∈ pairs, read x.1 = .ok (doc x.1) ∧ read x.2 = .ok (doc x.2)) :
    ∃ rows last, evalAlignment read pairs tag labels = .ok (rows, last) ∧
      List.Forall₂ (fun x row => RowFor row.1 (doc x.1) (doc x.2) tag ∧ FileName x.2 row.2) pairs rows ∧
      Says last (rows.map fun r => r.1.nTrue).sum (rows.map fun r => r.1.nPred).sum
        (rows.map fun r => r.1.nCommon).sum := by
  have e : labelsOf pairs labels = pairs.map fun x => basename x.2 := by rcases hl with rfl | rfl <;> rfl
  have ez : pairs.zip (pairs.map fun x => basename x.2) = pairs.map fun x => (x, basename x.2) := by
    clear hr e
    induction pairs with
    | nil => rfl
    | cons x l ih => simp [ih]
  obtain ⟨rows, last, h1, h2, h3⟩ := eval_core read doc pairs tag labels (by
    rw [e, ez]
    intro x hx
    obtain ⟨y, hy, rfl⟩ := List.mem_map.1 hx
    exact hr y hy)
  rw [e, ez, List.forall₂_map_left_iff] at h2
  exact ⟨rows, last, h1, h2.imp fun x r h => ⟨h.1, h.2 ▸ basename_spec x.2⟩, h3⟩

/-- C63.  Pairs of files without a label are not evaluated, and labels without files are not used. -/
theorem eval_length (read : String → Py Hitaext) (pairs : List (String × String)) (tag : String) (labels : Option (List String))
    (rows : List (Row × String)) (last : Row) (h : evalAlignment read pairs tag labels = .ok (rows, last)) :
    rows.length = if labels = none ∨ labels = some [] then pairs.length
      else min pairs.length (labels.getD []).length := by
  have key : ∀ (l : List ((String × String) × String)) s s', Py.forIn l s (evalPair read tag) = .ok s' →
      s'.2.length = s.2.length + l.length := by
    intro l
    induction l with
    | nil => rintro s s' h; cases h; simp
    | cons x l ih =>
      intro s s' h
      rw [Py.forIn] at h
      obtain hx | ⟨s1, hx⟩ : (∃ e, evalPair read tag x s = .error e) ∨ ∃ s1, evalPair read tag x s = .ok s1 := by
        cases evalPair read tag x s <;> simp
      · obtain ⟨e, hx⟩ := hx
        simp [hx] at h
      · have h1 : s1.2.length = s.2.length + 1 := by
          unfold evalPair at hx
          cases h2 : read x.1.1 with
          | error e => simp [h2, bind, Except.bind] at hx
          | ok t =>
            cases h3 : read x.1.2 with
            | error e => simp [h2, h3, bind, Except.bind] at hx
            | ok p =>
              obtain ⟨r, e1, -⟩ := scores (countAlignment t p tag).1 (countAlignment t p tag).2.1 (countAlignment t p tag).2.2
              simp only [h2, h3, e1, bind, Except.bind, pure, Except.pure, Except.ok.injEq] at hx
              rw [← hx]; simp
        simp only [hx] at h
        rw [ih _ _ h, h1]
        simp; omega
  unfold evalAlignment at h
  cases h1 : Py.forIn (pairs.zip (labelsOf pairs labels)) ((0, 0, 0), []) (evalPair read tag) with
  | error e => simp [h1, bind, Except.bind] at h
  | ok s =>
    obtain ⟨r, e1, -⟩ := scores s.1.1 s.1.2.1 s.1.2.2
    simp only [h1, e1, bind, Except.bind, pure, Except.pure, Except.ok.injEq, Prod.mk.injEq] at h
    rw [← h.1, key _ _ _ h1]
    cases labels with
    | none => simp [labelsOf]
    | some l => cases l <;> simp [labelsOf]

/-- C63.  Scores of a row are shares: precision, recall and F score are between 0 and 1; they are all 1 exactly when
both corpora align the same pairs and at least one, and all 0 exactly when they have no pair in common. -/
theorem scores_range (t p : Hitaext) (tag : String) (r : Row) (h : RowFor r t p tag) :
    (0 ≤ r.precision ∧ r.precision ≤ 1) ∧ (0 ≤ r.recall ∧ r.recall ≤ 1) ∧ (0 ≤ r.f ∧ r.f ≤ 1) ∧
    (r.f = 1 ↔ linked t tag = linked p tag ∧ (linked t tag).Nonempty) ∧
    (r.precision = 1 ↔ linked p tag ⊆ linked t tag ∧ (linked p tag).Nonempty) ∧
    (r.recall = 1 ↔ linked t tag ⊆ linked p tag ∧ (linked t tag).Nonempty) ∧
    (r.f = 0 ↔ Disjoint (linked t tag) (linked p tag)) := by
  obtain ⟨-, -, -, -, h5, h6, h7⟩ := h
  have ft := linked_finite t tag
  have fp := linked_finite p tag
  revert h5 h6 h7 ft fp
  generalize linked t tag = A
  generalize linked p tag = B
  intro h5 h6 h7 ft fp
  have ca := Set.ncard_le_ncard (Set.inter_subset_left : A ∩ B ⊆ A) ft
  have cb := Set.ncard_le_ncard (Set.inter_subset_right : A ∩ B ⊆ B) fp
  have ea : A.ncard = (A ∩ B).ncard ↔ A ⊆ B := by
    constructor
    · intro h
      have := Set.eq_of_subset_of_ncard_le (Set.inter_subset_left : A ∩ B ⊆ A) h.le ft
      rw [← this]; exact Set.inter_subset_right
    · intro h; rw [Set.inter_eq_left.2 h]
  have eb : B.ncard = (A ∩ B).ncard ↔ B ⊆ A := by
    constructor
    · intro h
      have := Set.eq_of_subset_of_ncard_le (Set.inter_subset_right : A ∩ B ⊆ B) h.le fp
      rw [← this]; exact Set.inter_subset_left
    · intro h; rw [Set.inter_eq_right.2 h]
  have na : A.Nonempty ↔ A.ncard ≠ 0 := by rw [Set.nonempty_iff_ne_empty, Ne, Ne, Set.ncard_eq_zero ft]
  have nb : B.Nonempty ↔ B.ncard ≠ 0 := by rw [Set.nonempty_iff_ne_empty, Ne, Ne, Set.ncard_eq_zero fp]
  have nc : Disjoint A B ↔ (A ∩ B).ncard = 0 := by
    rw [Set.disjoint_iff_inter_eq_empty, Set.ncard_eq_zero (ft.subset Set.inter_subset_left)]
  have eab : A = B ↔ A.ncard = (A ∩ B).ncard ∧ B.ncard = (A ∩ B).ncard := by
    rw [ea, eb]; exact Set.Subset.antisymm_iff
  rw [eab, na, ← ea, ← eb, nc, nb, h5, h6, h7]
  clear h5 h6 h7 ea eb na nb nc eab ft fp
  generalize A.ncard = a at *
  generalize B.ncard = b at *
  generalize (A ∩ B).ncard = c at *
  unfold fOf precisionOf recallOf
  have ha : (c : ℚ) ≤ a := by exact_mod_cast ca
  have hb : (c : ℚ) ≤ b := by exact_mod_cast cb
  have hc : (0 : ℚ) ≤ c := by positivity
  rcases Nat.eq_zero_or_pos c with rfl | hcp
  · refine ⟨by simp, by simp, by simp, ?_, ?_, ?_, by simp⟩
    · simp; omega
    · simp
    · simp
  · have ha0 : (0 : ℚ) < a := by exact_mod_cast (by omega : 0 < a)
    have hb0 : (0 : ℚ) < b := by exact_mod_cast (by omega : 0 < b)
    have hc0 : (0 : ℚ) < c := by exact_mod_cast hcp
    have hf : ((1 : ℚ) ^ 2 + 1) * (c / b) * (c / a) / (1 ^ 2 * (c / b) + c / a) = 2 * c / (a + b) := by
      field_simp
      ring
    rw [hf]
    refine ⟨⟨by positivity, (div_le_one hb0).2 hb⟩, ⟨by positivity, (div_le_one ha0).2 ha⟩,
      ⟨by positivity, (div_le_one (by positivity)).2 (by linarith)⟩, ?_, ?_, ?_, ?_⟩
    · rw [div_eq_one_iff_eq (by positivity)]
      constructor
      · intro h
        have : 2 * c = a + b := by exact_mod_cast h
        omega
      · rintro ⟨⟨h1, h2⟩, -⟩
        rw [h1, h2]; ring
    · rw [div_eq_one_iff_eq hb0.ne']
      constructor
      · intro h; have : c = b := by exact_mod_cast h
        omega
      · rintro ⟨h, -⟩; rw [h]
    · rw [div_eq_one_iff_eq ha0.ne']
      constructor
      · intro h; have : c = a := by exact_mod_cast h
        omega
      · rintro ⟨h, -⟩; rw [h]
    · constructor
      · intro h
        have : 0 < 2 * (c : ℚ) / (a + b) := by positivity
        rw [h] at this
        exact absurd this (lt_irrefl _)
      · intro h; omega

/-- C63.  With the true and the predicted corpus exchanged, precision and recall are exchanged and the F score is the
same. -/
theorem scores_exchange (t p : Hitaext) (tag : String) (r r' : Row) (h : RowFor r t p tag) (h' : RowFor r' p t tag) :
    r'.precision = r.recall ∧ r'.recall = r.precision ∧ r'.f = r.f ∧ r'.nCommon = r.nCommon := by
  unfold RowFor at h'
  rw [Set.inter_comm] at h'
  refine ⟨by rw [h'.precision, h.recall]; rfl, by rw [h'.recall, h.precision]; rfl, ?_, by rw [h'.common, h.common]⟩
  rw [h'.f, h.f]
  unfold fOf precisionOf recallOf
  ring

/-- C63 does not hold for links by number: they have no ids, so all links with this tag count as one, whatever they
align. -/
theorem by_number (links : List HitaextDoc.ByN) (m : Option String) (tag : String) :
    (linked ⟨links.map HitaextDoc.ByN.link, m⟩ tag).ncard = if ∃ l ∈ links, l.fromTag = tag ∧ l.toTag = tag then 1 else 0 := by
  split
  next h =>
    obtain ⟨l, h1, h2, h3⟩ := h
    have : linked ⟨links.map HitaextDoc.ByN.link, m⟩ tag = {(none, none)} := by
      ext ⟨x, y⟩
      simp only [linked, Set.mem_setOf_eq, Set.mem_singleton_iff, Prod.mk.injEq, List.mem_map]
      constructor
      · rintro ⟨_, ⟨l, -, rfl⟩, -, -, h1, h2⟩
        exact ⟨h1.symm, h2.symm⟩
      · rintro ⟨rfl, rfl⟩
        exact ⟨_, ⟨l, h1, rfl⟩, by simp [HitaextDoc.ByN.link, h2, h3]⟩
    rw [this, Set.ncard_singleton]
  next h =>
    have : linked ⟨links.map HitaextDoc.ByN.link, m⟩ tag = ∅ := by
      ext ⟨x, y⟩
      simp only [linked, Set.mem_setOf_eq, Set.mem_empty_iff_false, iff_false, List.mem_map]
      rintro ⟨_, ⟨l, h1, rfl⟩, h2, h3, -⟩
      exact h ⟨l, h1, by simpa [HitaextDoc.ByN.link] using h2, by simpa [HitaextDoc.ByN.link] using h3⟩
    rw [this, Set.ncard_empty]

/-- C63 does not hold for links by number: sentences 1 and 2 aligned straight or crosswise get full marks. -/
theorem by_number_full_marks :
    ∃ t p : List HitaextDoc.ByN, (∀ l ∈ t, l ∉ p) ∧ t.length = 2 ∧ p.length = 2 ∧
      (∃ r, (let n := countAlignment ⟨t.map HitaextDoc.ByN.link, some "n"⟩ ⟨p.map HitaextDoc.ByN.link, some "n"⟩ "s"
        computeScores n.1 n.2.1 n.2.2 = .ok r) ∧ r.nTrue = 1 ∧ r.precision = 1 ∧ r.recall = 1 ∧ r.f = 1) := by
  refine ⟨[⟨"s", 1, "s", 1⟩, ⟨"s", 2, "s", 2⟩], [⟨"s", 1, "s", 2⟩, ⟨"s", 2, "s", 1⟩], by simp, rfl, rfl,
    ⟨1, 1, 1, 1, 1, 1, 1⟩, ?_, rfl, rfl, rfl, rfl⟩
  decide +kernel

private def l1 : Link := { fromTag := some "s", toTag := some "s", fromId := some "1", toId := some "2" }
private def l2 : Link := { fromTag := some "s", toTag := some "s", fromId := some "2", toId := some "2" }
private def l3 : Link := { fromTag := some "s", toTag := some "p", fromId := some "2", toId := some "7" }
private def sampleRead (f : String) : Py Hitaext :=
  if f = "a/t.htx" then .ok ⟨[l1, l2, l3, l1], some "id"⟩ else if f = "b/p.htx" then .ok ⟨[l2], some "id"⟩ else .error .osError

example : evalAlignment sampleRead [("a/t.htx", "b/p.htx"), ("b/p.htx", "b/p.htx")] "s" none =
    .ok ([(⟨2, 1, 1, 1 / 2, 1, 1 / 2, 2 / 3⟩, "p.htx"), (⟨1, 1, 1, 1, 1, 1, 1⟩, "p.htx")], ⟨3, 2, 2, 2 / 3, 1, 2 / 3, 4 / 5⟩) := by
  decide +kernel

example : evalAlignment sampleRead [("a/t.htx", "b/p.htx"), ("nowhere", "b/p.htx")] "s" (some ["first"]) =
    .ok ([(⟨2, 1, 1, 1 / 2, 1, 1 / 2, 2 / 3⟩, "first")], ⟨2, 1, 1, 1 / 2, 1, 1 / 2, 2 / 3⟩) := by
  decide +kernel

end Verif.Props.PtcEval
