import Verif.Lemmas.TextAlignCorpus

/-! Properties C53, C54, C55 and C60 (lib/daeso/ptc/textalign.py). -/
namespace Verif.Props.TextAlign
open Verif Verif.Etree Verif.IElemTree Verif.HitaextDoc Verif.TextAlign Verif.Spec Verif.Props.HitaextDoc

/-- C55.  Weighted cosine similarity is between -1 and 1, also for vectors of different lengths; for non-negative
weights it is between 0 and 1. -/
theorem weighted_cosine_range (v w : List ℝ) : ∃ r, weightedCosine (some v) (some w) = .ok r ∧ |r| ≤ 1 ∧
    ((∀ x ∈ v, 0 ≤ x) → (∀ x ∈ w, 0 ≤ x) → 0 ≤ r) := by
  obtain ⟨q, h1, h2, h3⟩ := Py.catch_divR (List.zipWith (· * ·) v w).sum
    (Real.sqrt ((v.map fun x => x ^ 2).sum * (w.map fun x => x ^ 2).sum))
  refine ⟨q, h1, ?_, ?_⟩
  · by_cases h : Real.sqrt ((v.map fun x => x ^ 2).sum * (w.map fun x => x ^ 2).sum) = 0
    · rw [h2 h]; simp
    · rw [h3 h, abs_div, abs_of_nonneg (Real.sqrt_nonneg _)]
      refine div_le_one_of_le₀ (Real.abs_le_sqrt (cauchy v w)) (Real.sqrt_nonneg _)
  · intro hv hw
    by_cases h : Real.sqrt ((v.map fun x => x ^ 2).sum * (w.map fun x => x ^ 2).sum) = 0
    · rw [h2 h]
    · rw [h3 h]; exact div_nonneg (zip_nonneg v w hv hw) (Real.sqrt_nonneg _)

/-- C55.  It is the quotient of the inner product and the lengths of the vectors. -/
theorem weighted_cosine_value (v w : List ℝ) (hv : ∃ x ∈ v, x ≠ 0) (hw : ∃ x ∈ w, x ≠ 0) :
    weightedCosine (some v) (some w) = .ok ((List.zipWith (· * ·) v w).sum /
      (Real.sqrt (v.map fun x => x ^ 2).sum * Real.sqrt (w.map fun x => x ^ 2).sum)) := by
  obtain ⟨q, h1, h2, h3⟩ := Py.catch_divR (List.zipWith (· * ·) v w).sum
    (Real.sqrt ((v.map fun x => x ^ 2).sum * (w.map fun x => x ^ 2).sum))
  have hne : ∀ v : List ℝ, (∃ x ∈ v, x ≠ 0) → 0 < (v.map fun x => x ^ 2).sum := by
    rintro v ⟨x, hx, h0⟩
    exact lt_of_le_of_ne (sum_sq_nonneg v) fun hc => h0 ((sum_sq_zero v).1 hc.symm x hx)
  have hpos := mul_pos (hne v hv) (hne w hw)
  unfold weightedCosine
  dsimp only
  rw [h1, h3 (Real.sqrt_ne_zero'.2 hpos), Real.sqrt_mul (sum_sq_nonneg v)]

/-- C55.  It is symmetric. -/
theorem weighted_cosine_comm (v w : List ℝ) :
    weightedCosine (some v) (some w) = weightedCosine (some w) (some v) := by
  unfold weightedCosine
  dsimp only
  rw [zip_comm, mul_comm]

/-- C55.  A vector that is not all zero has similarity 1 with itself. -/
theorem weighted_cosine_self (v : List ℝ) (h : ∃ x ∈ v, x ≠ 0) : weightedCosine (some v) (some v) = .ok 1 := by
  rw [weighted_cosine_value v v h h, zip_self, ← Real.sqrt_mul (sum_sq_nonneg v),
    Real.sqrt_mul_self (sum_sq_nonneg v), div_self]
  obtain ⟨x, hx, h0⟩ := h
  exact fun hc => h0 ((sum_sq_zero v).1 hc x hx)

/-- C55.  With an all-zero (or empty) vector it is 0; without weights it raises. -/
theorem weighted_cosine_zero (v w : List ℝ) (h : ∀ x ∈ v, x = 0) :
    weightedCosine (some v) (some w) = .ok 0 ∧ weightedCosine none (some w) = .error .typeError ∧
      weightedCosine (some v) none = .error .typeError := by
  obtain ⟨q, h1, h2, -⟩ := Py.catch_divR (List.zipWith (· * ·) v w).sum
    (Real.sqrt ((v.map fun x => x ^ 2).sum * (w.map fun x => x ^ 2).sum))
  refine ⟨?_, rfl, rfl⟩
  unfold weightedCosine
  dsimp only
  rw [h1, h2 (by rw [(sum_sq_zero v).2 h]; simp)]

example : ∃ x ∈ ([0, 2, 1] : List ℝ), x ≠ 0 := ⟨2, by simp, by norm_num⟩

/-- C54.  The threshold filter keeps exactly the scores above the threshold, in order. -/
theorem threshold_keeps (t : ℝ) (l : List Scored) :
    (thresholdFilter t l).Sublist l ∧ (∀ x, x ∈ thresholdFilter t l ↔ x ∈ l ∧ t < x.1) ∧
      ∀ x, t < x.1 → (thresholdFilter t l).count x = l.count x := by
  unfold thresholdFilter
  refine ⟨List.filter_sublist, fun x => by simp [List.mem_filter], fun x hx => ?_⟩
  rw [List.count_filter]
  simpa using hx

/-- C54.  Clearing removes exactly the links from the source focus tag or to the target focus tag. -/
theorem clear_removes (d : Hitaext) (s t : String) :
    (clearAlignments d s t).method = d.method ∧ (clearAlignments d s t).links.Sublist d.links ∧
    ∀ l, (clearAlignments d s t).links.count l =
      if l.fromTag = some s ∨ l.toTag = some t then 0 else d.links.count l := by
  refine ⟨rfl, List.filter_sublist, fun l => ?_⟩
  unfold clearAlignments
  split
  · rename_i h
    rw [List.count_eq_zero]
    intro hc
    have := (List.mem_filter.1 hc).2
    simp only [decide_eq_true_eq] at this
    rcases h with h | h
    · exact this.1 h
    · exact this.2 h
  · rename_i h
    rw [List.count_filter]
    simp only [decide_eq_true_eq]
    exact not_or.1 h

/-- C53.  The non-crossing filter, for every way of sorting the scores in descending order: what it keeps has at least
the threshold, no two of them cross, and every other one with at least the threshold crosses a kept one with a
score at least as high. -/
theorem no_cross (sort : List Scored → List Scored) (t : ℝ) (n n' : Nat → Nat) (l : List Scored)
    (hp : (sort l).Perm l) (hs : (sort l).Pairwise fun x y => y.1 ≤ x.1) :
    (noCrossFilter sort t n n' l).Sublist (sort l) ∧
    (∀ x ∈ noCrossFilter sort t n n' l, x ∈ l ∧ t ≤ x.1) ∧
    (∀ x ∈ noCrossFilter sort t n n' l, ∀ y ∈ noCrossFilter sort t n n' l, ¬ Cross n n' x.2 y.2) ∧
    ∀ x ∈ l, t ≤ x.1 → x ∈ noCrossFilter sort t n n' l ∨
      ∃ y ∈ noCrossFilter sort t n n' l, x.1 ≤ y.1 ∧ Cross n n' x.2 y.2 := by
  obtain ⟨r, h1, h2, h3, h4, h5⟩ := noCross_spec t n n' (sort l) [] hs (by simp) (by simp)
  have he : noCrossFilter sort t n n' l = r := by unfold noCrossFilter; simpa using h1
  rw [he]
  simp only [List.nil_append] at h4 h5
  refine ⟨h2, fun x hx => ⟨hp.mem_iff.1 (h2.subset hx), h3 x hx⟩, ?_, fun x hx => h5 x (hp.mem_iff.2 hx)⟩
  have hns : ∀ x : Scored, ¬ Cross n n' x.2 x.2 := by rintro x (h | h) <;> omega
  intro x hx y hy hc
  by_cases hxy : x = y
  · subst hxy; exact hns x hc
  · haveI : Std.Symm (fun a b : Scored => ¬ Cross n n' b.2 a.2) := ⟨fun _ _ h hc => h (cross_symm hc)⟩
    exact h4.forall hy hx (fun hc => hxy hc.symm) hc

/-- The hypotheses hold of a sort by score. -/
example : ∃ sort : List Scored → List Scored, ∀ l, (sort l).Perm l ∧ (sort l).Pairwise fun x y => y.1 ≤ x.1 := by
  classical
  refine ⟨fun l => l.mergeSort fun x y => decide (y.1 ≤ x.1), fun l => ⟨List.mergeSort_perm _ _, ?_⟩⟩
  have h := List.pairwise_mergeSort (le := fun x y : Scored => decide (y.1 ≤ x.1))
    (by intro a b c h1 h2; simp only [decide_eq_true_eq] at *; linarith)
    (by intro a b; simp only [Bool.or_eq_true, decide_eq_true_eq]; exact le_total _ _) l
  simpa using h

variable {τ ω : Type}

/-- C53.  The alignments which one pair of scope elements gets by the non-crossing filter do not cross. -/
theorem scope_no_cross (c : Config τ ω) (sort : List Scored → List Scored) (t : ℝ)
    (hsort : ∀ l, (sort l).Perm l ∧ (sort l).Pairwise fun x y => y.1 ≤ x.1)
    (hc : ∀ n n' l, c.filter n n' l = .ok (noCrossFilter sort t n n' l)) (dF dT dF' : Doc) (S T : Tree)
    (h : alignWithin c dF dT S T = .ok dF') (a b a' b' : Nat) (h1 : b ∈ dF'.st.aligns a) (h2 : b ∉ dF.st.aligns a)
    (h3 : b' ∈ dF'.st.aligns a') (h4 : b' ∉ dF.st.aligns a') :
    ¬ Cross (fun a => (dF.st.n a).getD 0) (fun a => (dT.st.n a).getD 0) (a, b) (a', b') := by
  obtain ⟨-, hE, -⟩ := alignWithin_spec c dF dT dF' S T h
  have hy : ∀ a b, b ∈ dF'.st.aligns a → b ∉ dF.st.aligns a → Yields c dF dT S T a b := by
    intro a b h1 h2
    obtain ⟨l, e1, -, e3⟩ := hE a
    rw [e1] at h1
    rcases List.mem_append.1 h1 with h1 | h1
    · exact absurd h1 h2
    · exact (e3 b h1).2
  obtain ⟨-, -, l, m, r, y1, y2, y3⟩ := hy a b h1 h2
  obtain ⟨-, -, l', m', r', z1, z2, z3⟩ := hy a' b' h3 h4
  rw [y1] at z1
  injection z1 with z1
  subst z1
  rw [y2] at z2
  injection z2 with z2
  subst z2
  rw [hc] at y2
  injection y2 with y2
  subst y2
  exact (no_cross sort t _ _ l (hsort l).1 (hsort l).2).2.2.1 _ y3 _ z3

/-- C60.  Alignment adds, and never removes: whatever the functions, as long as the filter does not invent scores, the
alignments of each element are extended, without duplicates, by focus elements that lie below scope elements which
are aligned to scope elements above it. -/
theorem align_sound (c : Config τ ω) (hf : ∀ n n' l l', c.filter n n' l = .ok l' → ∀ x ∈ l', x ∈ l)
    (tF tT : Tree) (dF dT dF' : Doc) (h : Docs c tF tT dF dT) (hin : Inside tF tT dF.st.aligns) (sS sT : List String)
    (hok : alignScopes c sS sT dF dT = .ok dF') (e : Tree) (he : e ∈ elems tF) :
    ∃ new, dF'.st.aligns e.addr = dF.st.aligns e.addr ++ new ∧ new.Nodup ∧ ∀ b ∈ new, b ∉ dF.st.aligns e.addr ∧
      ∃ S ∈ elems tF, ∃ T ∈ elems tT, S.tag ∈ sS ∧ T.tag ∈ sT ∧ T.addr ∈ dF'.st.aligns S.addr ∧
        e ∈ focusList (sourceOpts c) tF S c.focusS ∧ ∃ e' ∈ focusList (targetOpts c) tT T c.focusT, e'.addr = b := by
  obtain ⟨-, hE⟩ := alignScopes_sound c sS sT dF dT dF' hok
  obtain ⟨new, h1, h2, h3⟩ := hE e.addr
  refine ⟨new, h1, h2, fun b hb => ⟨(h3 b hb).1, ?_⟩⟩
  obtain ⟨S, hS, hst, x, hx, T, hT, htt, hy⟩ := (h3 b hb).2
  rw [h.root.1, iter_eq] at hS
  obtain ⟨hTm, rfl⟩ := elemAt_mem hT
  rw [h.root.2] at hTm
  obtain ⟨⟨z, hz, hza⟩, e', he', hb'⟩ := hy.focus hf
  rw [focus_eq _ tF h.hF dF h.sF S hS] at hz
  rw [focus_eq _ tT h.hT dT h.sT T hTm] at he'
  have : z = e := List.inj_on_of_nodup_map h.hF (focusList_mem hS hz).1 he hza
  subst this
  exact ⟨S, hS, T, hTm, hst, htt, hx, hz, e', he', hb'⟩

/-- The links that survive clearing. -/
def keptLinks (c : Config τ ω) (clear : Bool) (links : List ByN) : List ByN :=
  if clear then links.filter fun l => l.fromTag ≠ c.focusS ∧ l.toTag ≠ c.focusT else links

/-- The new links: those between focus elements, not linked yet, whose similarity within linked scope elements is
accepted. -/
def Wanted (c : Config τ ω) (keep : ℝ → Bool) (tF tT : Tree) (sS sT : List String) (kept : List ByN) (l : ByN) : Prop :=
  ∃ e ∈ elems tF, ∃ e' ∈ elems tT, l.source tF = some e.addr ∧ l.target tT = some e'.addr ∧
    (∀ k ∈ kept, k.source tF = some e.addr → k.target tT ≠ some e'.addr) ∧
    ∃ S ∈ elems tF, ∃ T ∈ elems tT, S.tag ∈ sS ∧ T.tag ∈ sT ∧
      (∃ k ∈ kept, k.source tF = some S.addr ∧ k.target tT = some T.addr) ∧
      ∃ r, ScopeScore c tF tT S T e e' r ∧ keep r = true

/-- The links after alignment: for each source element, in document order, the old links and then the new ones. -/
def Extends (c : Config τ ω) (keep : ℝ → Bool) (tF tT : Tree) (sS sT : List String) (kept out : List ByN) : Prop :=
  ∃ new : List ByN, inOrder tF (ByN.source tF) out = out ∧
    (∀ e ∈ elems tF, (out.filter fun l => l.source tF = some e.addr) =
      (kept.filter fun l => l.source tF = some e.addr) ++ new.filter fun l => l.source tF = some e.addr) ∧
    new.Nodup ∧ ∀ l, l ∈ new ↔ Wanted c keep tF tT sS sT kept l

private theorem cleared (c : Config τ ω) (clear : Bool) (links : List ByN) (m : Option String) :
    (if clear then clearAlignments ⟨links.map ByN.link, m⟩ c.focusS c.focusT else ⟨links.map ByN.link, m⟩) =
      (⟨(keptLinks c clear links).map ByN.link, m⟩ : Hitaext) := by
  cases clear
  · rfl
  · simp only [if_true, clearAlignments, keptLinks, List.filter_map, Function.comp_def]
    congr 2
    refine List.filter_congr fun l _ => ?_
    simp [ByN.link]

/-- C60.  Aligning a corpus with explicit scopes, when focus elements are no scope elements: exactly the wanted links
are added to the ones that survive clearing. -/
theorem align_corpus (c : Config τ ω) (ht : Total c) (keep : ℝ → Bool)
    (hk : ∀ n n' l, c.filter n n' l = .ok (l.filter fun x => keep x.1)) (tF tT : Tree) (hF : Distinct tF)
    (hT : Distinct tT) (sS sT : List String) (hsc : c.scope = some (sS, sT)) (hfs : c.focusS ∉ sS) (clear : Bool)
    (links : List ByN)
    (hv : ∀ l ∈ keptLinks c clear links, (l.source tF).isSome ∧ (l.target tT).isSome)
    (m : Option String) (hm : m = none ∨ m = some "n") :
    ∃ out, alignCorpus c ⟨links.map ByN.link, m⟩ clear tF tT = .ok ⟨out.map ByN.link, m⟩ ∧
      Extends c keep tF tT sS sT (keptLinks c clear links) out := by
  unfold alignCorpus
  rw [cleared]
  dsimp only
  obtain ⟨F, T, h1, h2, -, -, -⟩ := inject_extract_n tF tT (sourceOpts c) (targetOpts c) fresh fresh hF hT _ hv m hm
  have h1' := h1
  unfold sourceOpts targetOpts at h1'
  rw [h1']
  obtain ⟨s1, s2⟩ := inject_same _ _ _ h1
  dsimp only
  unfold scopeTags
  rw [hsc]
  dsimp only
  obtain ⟨dF', out, new, g1, g2, g3⟩ := corpus_core ht keep hk
    (dF := { update (sourceOpts c) tF fresh with st := F }) (dT := { update (targetOpts c) tT fresh with st := T })
    ⟨hF, hT, ⟨rfl, rfl, s1⟩, ⟨rfl, rfl, s2⟩⟩ (keptLinks c clear links) hv h2 sS sT hfs
    ⟨(keptLinks c clear links).map ByN.link, m⟩ hm
  unfold sourceOpts targetOpts at g1
  rw [g1]
  exact ⟨out, g2, new, g3⟩

/-- The links with those of the roots replaced by one. -/
def rootLinked (tF tT : Tree) (links : List ByN) : List ByN :=
  ⟨tF.tag, 1, tT.tag, 1⟩ :: links.filter fun l => l.source tF ≠ some tF.addr

private theorem nth_root (t : Tree) : nth t t.tag 1 = some t := by
  cases t
  simp [nth, elems, Tree.tag]

private theorem root_mem (t : Tree) : t ∈ elems t := by cases t; simp [elems]

/-- C60.  Without scopes the roots are taken to be linked: their other links are lost and one between the roots is
added; then exactly the wanted links within the roots are added. -/
theorem align_corpus_default (c : Config τ ω) (ht : Total c) (keep : ℝ → Bool)
    (hk : ∀ n n' l, c.filter n n' l = .ok (l.filter fun x => keep x.1)) (tF tT : Tree) (hF : Distinct tF)
    (hT : Distinct tT) (hsc : c.scope = none) (hfs : c.focusS ≠ tF.tag) (clear : Bool) (links : List ByN)
    (hv : ∀ l ∈ keptLinks c clear links, (l.source tF).isSome ∧ (l.target tT).isSome)
    (m : Option String) (hm : m = none ∨ m = some "n") :
    ∃ out, alignCorpus c ⟨links.map ByN.link, m⟩ clear tF tT = .ok ⟨out.map ByN.link, m⟩ ∧
      Extends c keep tF tT [tF.tag] [tT.tag] (rootLinked tF tT (keptLinks c clear links)) out := by
  unfold alignCorpus
  rw [cleared]
  dsimp only
  obtain ⟨F, T, h1, h2, -, -, -⟩ := inject_extract_n tF tT (sourceOpts c) (targetOpts c) fresh fresh hF hT _ hv m hm
  have h1' := h1
  unfold sourceOpts targetOpts at h1'
  rw [h1']
  obtain ⟨s1, s2⟩ := inject_same _ _ _ h1
  dsimp only
  unfold scopeTags
  rw [hsc]
  dsimp only
  have hr1 : (⟨tF.tag, 1, tT.tag, 1⟩ : ByN).source tF = some tF.addr := by simp [ByN.source, nth_root]
  have hr2 : (⟨tF.tag, 1, tT.tag, 1⟩ : ByN).target tT = some tT.addr := by simp [ByN.target, nth_root]
  obtain ⟨dF', out, new, g1, g2, g3⟩ := corpus_core ht keep hk
    (dF := { update (sourceOpts c) tF fresh with st := { F with aligns := put F.aligns tF.addr [tT.addr] } })
    (dT := { update (targetOpts c) tT fresh with st := T })
    ⟨hF, hT, ⟨rfl, rfl, ⟨s1.1, s1.2, s1.3, s1.4, s1.5, s1.6⟩⟩, ⟨rfl, rfl, s2⟩⟩
    (rootLinked tF tT (keptLinks c clear links)) (by
      intro l hl
      rcases List.mem_cons.1 hl with rfl | hl
      · rw [hr1, hr2]; simp
      · exact hv l (List.mem_of_mem_filter hl)) (by
      intro e he
      unfold rootLinked
      by_cases hr : e.addr = tF.addr
      · rw [List.filter_cons_of_pos (by simp [hr1, hr]), List.filterMap_cons_some hr2]
        simp only [put, hr, if_true, List.filter_filter]
        rw [List.filter_eq_nil_iff.2]
        · rfl
        · intro l _; simp
      · rw [List.filter_cons_of_neg (by simp [hr1]; exact fun hc => hr hc.symm), List.filter_filter]
        simp only [put, hr, if_false]
        rw [h2 e he]
        congr 1
        refine List.filter_congr fun l _ => ?_
        by_cases hl : l.source tF = some e.addr
        · simp [hl, hr]
        · simp [hl]) [tF.tag] [tT.tag] (by simpa using hfs)
    ⟨(keptLinks c clear links).map ByN.link, m⟩ hm
  have hroot : (update (sourceOpts c) tF fresh).root = tF ∧ (update (targetOpts c) tT fresh).root = tT := ⟨rfl, rfl⟩
  unfold sourceOpts targetOpts at g1 hroot
  dsimp only at g1
  rw [hroot.1, hroot.2] at g1 ⊢
  rw [g1]
  exact ⟨out, g2, new, g3⟩

/-- An aligner of sentences with equal text, as `TextAligner(("s", "s"), ignore_tags=(["q"], ["q"]))` with texts as
terms and no filter. -/
noncomputable def sampleAligner (scope : Option (List String × List String)) : Config Text Unit where
  focusS := "s"
  focusT := "s"
  scope := scope
  ignoreS := ["q"]
  ignoreT := ["q"]
  ws := fun c => c = ' '
  term := id
  weight := fun ts => .ok (ts.map fun _ => ())
  sim := fun x y _ _ => .ok (if x = y then 1 else 0)
  filter := fun _ _ l => .ok (thresholdFilter 0 l)

/-- The hypotheses hold: the functions return, the filter is a threshold, the links designate elements. -/
example : Total (sampleAligner none) ∧
    (∀ n n' l, (sampleAligner none).filter n n' l = .ok (l.filter fun x => @decide (x.1 > 0) (Classical.dec _))) ∧
    Distinct Props.IElemTree.sample ∧ "s" ∉ ["p"] ∧
    ∀ l ∈ [(⟨"p", 1, "p", 1⟩ : ByN)], (l.source Props.IElemTree.sample).isSome ∧
      (l.target Props.IElemTree.sample).isSome := by
  refine ⟨⟨fun ts => ⟨_, rfl⟩, fun x y w w' => ⟨_, rfl⟩, fun n n' l => ⟨_, rfl⟩⟩, ?_, ?_, by simp, by decide +kernel⟩
  · intro n n' l
    simp only [sampleAligner, thresholdFilter]
  · simp [Distinct, Props.IElemTree.sample, elems, elemsOf, Tree.addr]

/-- The documentation says that focus elements within the subtree of an ignored element remain unaligned.  This is
false: those without children are not marked as ignored, have the empty text, and get aligned with each other. -/
theorem ignored_aligned : ∃ (tF tT e e' : Tree) (out : List ByN), Distinct tF ∧ Distinct tT ∧
    e ∈ elems tF ∧ e ∉ visible (sourceOpts (sampleAligner none)) tF ∧ e' ∉ visible (targetOpts (sampleAligner none)) tT ∧
    e.text ≠ e'.text ∧ alignCorpus (sampleAligner none) ⟨[], none⟩ true tF tT = .ok ⟨out.map ByN.link, none⟩ ∧
    ∃ l ∈ out, l.source tF = some e.addr ∧ l.target tT = some e'.addr := by
  have hF : Distinct (.node 0 "d" none [] [] [.node 1 "q" none [] [] [.node 2 "s" none ['a'] [] []]]) := by
    simp [Distinct, elems, elemsOf, Tree.addr]
  have hT : Distinct (.node 0 "d" none [] [] [.node 1 "q" none [] [] [.node 2 "s" none ['b'] [] []]]) := by
    simp [Distinct, elems, elemsOf, Tree.addr]
  obtain ⟨out, h1, new, h2, h3, h4, h5⟩ := align_corpus_default (sampleAligner none)
    ⟨fun ts => ⟨_, rfl⟩, fun x y w w' => ⟨_, rfl⟩, fun n n' l => ⟨_, rfl⟩⟩
    (fun x => @decide (x > 0) (Classical.dec _))
    (by intro n n' l; simp only [sampleAligner, thresholdFilter]) _ _ hF hT rfl (by simp [sampleAligner, Tree.tag])
    true [] (by simp [keptLinks]) none (Or.inl rfl)
  refine ⟨_, _, .node 2 "s" none ['a'] [] [], .node 2 "s" none ['b'] [] [], out, hF, hT, ?_, ?_, ?_, ?_, h1,
    ⟨"s", 1, "s", 1⟩, ?_, ?_, ?_⟩
  · simp [elems, elemsOf]
  · simp [visible, visibleOf, sourceOpts, sampleAligner]
  · simp [visible, visibleOf, targetOpts, sampleAligner]
  · simp [Tree.text]
  · have hw := (h5 ⟨"s", 1, "s", 1⟩).2 ⟨.node 2 "s" none ['a'] [] [], by simp [elems, elemsOf],
      .node 2 "s" none ['b'] [] [], by simp [elems, elemsOf], by decide +kernel, by decide +kernel, by decide +kernel,
      .node 0 "d" none [] [] [.node 1 "q" none [] [] [.node 2 "s" none ['a'] [] []]], by simp [elems],
      .node 0 "d" none [] [] [.node 1 "q" none [] [] [.node 2 "s" none ['b'] [] []]], by simp [elems],
      by simp, by simp, ⟨⟨"d", 1, "d", 1⟩, by simp [rootLinked, Tree.tag], by decide +kernel, by decide +kernel⟩,
      1, ?_, by simp⟩
    · have he := h3 (.node 2 "s" none ['a'] [] []) (by simp [elems, elemsOf])
      have hm : (⟨"s", 1, "s", 1⟩ : ByN) ∈ new.filter fun l => l.source (.node 0 "d" none [] []
          [.node 1 "q" none [] [] [.node 2 "s" none ['a'] [] []]]) = some (IElemTree.Tree.node 2 "s" none ['a'] [] []).addr :=
        List.mem_filter.2 ⟨hw, by decide +kernel⟩
      exact List.mem_of_mem_filter (he ▸ List.mem_append_right _ hm)
    · refine ⟨0, 0, ?_, ?_, [], [], [(), ()], (), (), ?_, ?_, ?_, rfl, ?_, ?_⟩
      all_goals simp [focusList, below, elemsOf, elems, Tree.children, Tree.tag, textOf, visible, visibleOf, sourceOpts,
        targetOpts, sampleAligner]
  · decide +kernel
  · decide +kernel

end Verif.Props.TextAlign
