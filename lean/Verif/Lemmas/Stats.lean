import Verif.Spec.Stats
import Verif.Lemmas.Base

/-! Lemmas about the corpus statistics. -/
set_option linter.unusedSectionVars false
namespace Verif.Stats
open Verif Verif.Spec.Stats
open Classical

theorem inc_apply (r : Row) (c k : String) : inc r c k = r k + if k = c then 1 else 0 := by
  unfold inc; split <;> rfl

theorem inPunct_iff (t : String) : DaesoGraph.inPunct t = true ↔ t.toList <:+: DaesoGraph.punctuation := by
  simp [DaesoGraph.inPunct]

theorem punct_iff (l : List String) : (l ≠ [] ∧ l.all DaesoGraph.inPunct = true) ↔ Punct l := by
  unfold Punct
  rw [List.all_eq_true]
  simp only [inPunct_iff]

/-- With existing nodes, the alignments passed over are those that do not count. -/
theorem skipAlign_eq (fl : Flags) (W : Nat → SG) (p : SPair) (a : (String × String) × String) (l m : List String)
    (h1 : (W p.source).nodes.get? a.1.1 = some l) (h2 : (W p.target).nodes.get? a.1.2 = some m) :
    skipAlign fl (W p.source) (W p.target) a.1 = .ok (decide (¬ Counted fl W p a)) := by
  have hc : Counted fl W p a ↔ Visible fl l ∧ Visible fl m := by
    constructor
    · rintro ⟨l', m', e1, e2, h⟩
      rw [h1, Option.some.injEq] at e1
      rw [h2, Option.some.injEq] at e2
      subst e1 e2
      exact h
    · intro h; exact ⟨l, m, h1, h2, h⟩
  rw [hc]
  unfold skipAlign nodeEmpty nodePunct
  simp only [AD.get_eq h1, AD.get_eq h2, punct_iff]
  unfold Visible
  cases fl.withEmpty <;> cases fl.withPunc <;> by_cases e1 : l = [] <;> by_cases e2 : m = [] <;>
    by_cases e3 : Punct l <;> by_cases e4 : Punct m <;> simp [orElse, e1, e2, e3, e4] <;> simp_all

/-- The column of a known relation. -/
theorem relColumn_ok {r : String} (h : r ∈ relations) : ∃ c, relColumn r = .ok c ∧ c ≠ "CNP" := by
  unfold relations at h
  simp only [List.mem_cons, List.not_mem_nil, or_false] at h
  rcases h with rfl | rfl | rfl | rfl | rfl <;> exact ⟨_, rfl, by decide⟩

theorem relColumn_error {r : String} (h : r ∉ relations) : relColumn r = .error .assertionError := by
  unfold relations at h
  simp only [List.mem_cons, List.not_mem_nil, or_false, not_or] at h
  simp [relColumn, h]

theorem has_get {d : AD String (List String)} {k : String} (h : d.has k = true) : ∃ v, d.get? k = some v := by
  unfold AD.has at h
  exact Option.isSome_iff_exists.1 h

/-- Is this the column of the relation? -/
def IsCol (k : String) (r : String) : Prop := relColumn r = .ok k

/-- The rest of the attributes. -/
def SameGraphAttrs (a b : Attrs) : Prop := a.gFrom = b.gFrom ∧ a.gTo = b.gTo ∧ a.rootOk = b.rootOk

theorem nodeLoop (fl : Flags) (W : Nat → SG) (p : SPair) (l : List ((String × String) × String))
    (hn : ∀ a ∈ l, (W p.source).nodes.has a.1.1 = true ∧ (W p.target).nodes.has a.1.2 = true)
    (hr : ∀ a ∈ l, Counted fl W p a → a.2 ∈ relations) (st : Row × Attrs) :
    ∃ st', Py.forIn l st (nodeStep fl W p) = .ok st' ∧
      (∀ k, st'.1 k = st.1 k +
        (if k = "CNP" then (l.filter fun a => decide (Counted fl W p a)).length else 0) +
        (l.filter fun a => decide (Counted fl W p a)).countP (fun a => decide (IsCol k a.2))) ∧
      SameGraphAttrs st'.2 st.2 ∧
      (∀ g n, st'.2.nFrom g n = st.2.nFrom g n +
        (l.filter fun a => decide (Counted fl W p a)).countP (fun a => decide (p.source = g ∧ a.1.1 = n))) ∧
      (∀ g n, st'.2.nTo g n = st.2.nTo g n +
        (l.filter fun a => decide (Counted fl W p a)).countP (fun a => decide (p.target = g ∧ a.1.2 = n))) := by
  induction l generalizing st with
  | nil => exact ⟨st, rfl, by simp, ⟨rfl, rfl, rfl⟩, by simp, by simp⟩
  | cons a l ih =>
    have ih := ih (fun x hx => hn x (by simp [hx])) (fun x hx => hr x (by simp [hx]))
    obtain ⟨v1, e1⟩ := has_get (hn a (by simp)).1
    obtain ⟨v2, e2⟩ := has_get (hn a (by simp)).2
    have hs := skipAlign_eq fl W p a v1 v2 e1 e2
    unfold Py.forIn
    by_cases hc : Counted fl W p a
    · obtain ⟨c, hcol, hcn⟩ := relColumn_ok (hr a (by simp) hc)
      have hstep : nodeStep fl W p a st = .ok (inc (inc st.1 "CNP") c, markNodes p.source p.target a.1 st.2) := by
        unfold nodeStep
        rw [hs]
        simp [hc, hcol, AD.get_eq e1, AD.get_eq e2]
      rw [hstep]
      obtain ⟨st', g1, g2, g3, g4, g5⟩ := ih (inc (inc st.1 "CNP") c, markNodes p.source p.target a.1 st.2)
      refine ⟨st', g1, ?_, ?_, ?_, ?_⟩
      · intro k
        rw [g2 k]
        have hk : IsCol k a.2 ↔ k = c := by
          unfold IsCol; rw [hcol, Except.ok.injEq]; exact ⟨fun h => h.symm, fun h => h.symm⟩
        rw [List.filter_cons_of_pos (by simpa using hc), List.countP_cons, List.length_cons]
        simp only [inc_apply, hk, decide_eq_true_eq]
        by_cases k1 : k = "CNP"
        · rw [if_pos k1, if_pos k1, if_pos k1]; omega
        · rw [if_neg k1, if_neg k1, if_neg k1]; omega
      · exact ⟨g3.1.trans rfl, g3.2.1.trans rfl, g3.2.2.trans rfl⟩
      · intro g n
        rw [g4 g n, List.filter_cons_of_pos (by simpa using hc), List.countP_cons]
        simp only [markNodes]
        by_cases k1 : g = p.source ∧ n = a.1.1
        · rw [if_pos k1, if_pos (by simp [k1])]; omega
        · rw [if_neg k1, if_neg (by simp; intro x y; exact k1 ⟨x.symm, y.symm⟩)]; omega
      · intro g n
        rw [g5 g n, List.filter_cons_of_pos (by simpa using hc), List.countP_cons]
        simp only [markNodes]
        by_cases k1 : g = p.target ∧ n = a.1.2
        · rw [if_pos k1, if_pos (by simp [k1])]; omega
        · rw [if_neg k1, if_neg (by simp; intro x y; exact k1 ⟨x.symm, y.symm⟩)]; omega
    · have hstep : nodeStep fl W p a st = .ok st := by
        unfold nodeStep
        rw [hs]
        simp [hc]
      rw [hstep]
      obtain ⟨st', g1, g2, g3, g4, g5⟩ := ih st
      refine ⟨st', g1, ?_⟩
      rw [List.filter_cons_of_neg (by simpa using hc)]
      exact ⟨g2, g3, g4, g5⟩

theorem nodeLoop_error (fl : Flags) (W : Nat → SG) (p : SPair) (l : List ((String × String) × String))
    (hn : ∀ a ∈ l, (W p.source).nodes.has a.1.1 = true ∧ (W p.target).nodes.has a.1.2 = true)
    (hr : ∃ a ∈ l, Counted fl W p a ∧ a.2 ∉ relations) (st : Row × Attrs) :
    Py.forIn l st (nodeStep fl W p) = .error .assertionError := by
  induction l generalizing st with
  | nil => simp at hr
  | cons a l ih =>
    obtain ⟨v1, e1⟩ := has_get (hn a (by simp)).1
    obtain ⟨v2, e2⟩ := has_get (hn a (by simp)).2
    have hs := skipAlign_eq fl W p a v1 v2 e1 e2
    unfold Py.forIn
    by_cases hb : Counted fl W p a ∧ a.2 ∉ relations
    · have : nodeStep fl W p a st = .error .assertionError := by
        unfold nodeStep
        rw [hs]
        simp [hb.1, relColumn_error hb.2]
      rw [this]
    · have hx : ∃ st', nodeStep fl W p a st = .ok st' := by
        unfold nodeStep
        rw [hs]
        by_cases hc : Counted fl W p a
        · obtain ⟨c, hcol, -⟩ := relColumn_ok (r := a.2) (by by_contra h; exact hb ⟨hc, h⟩)
          simp [hc, hcol, AD.get_eq e1, AD.get_eq e2]
        · simp [hc]
      obtain ⟨st', hst⟩ := hx
      rw [hst]
      refine ih (fun x hx => hn x (by simp [hx])) ?_ st'
      obtain ⟨x, hx, hbx⟩ := hr
      rcases List.mem_cons.1 hx with rfl | hx
      · exact absurd hbx hb
      · exact ⟨x, hx, hbx⟩

theorem rootsAligned_iff (W : Nat → SG) (p : SPair) : rootsAligned W p = true ↔ RootLink W p := by
  unfold rootsAligned RootLink
  cases h1 : (W p.source).root <;> cases h2 : (W p.target).root <;> simp

theorem failed_iff (W : Nat → SG) (p : SPair) : ((W p.source).failed || (W p.target).failed) = true ↔ Failed W p := by
  unfold Failed; simp

/-- What a graph pair that counts adds to a column. -/
noncomputable def contrib (fl : Flags) (W : Nat → SG) (p : SPair) (k : String) : Nat :=
  (if k = "CGP" then 1 else 0) + (if k = "CGPFP" ∧ Failed W p then 1 else 0) +
  (if k = "CGPUR" ∧ ¬ RootLink W p then 1 else 0) +
  (if k = "CGPFU" ∧ ¬ Failed W p ∧ RootLink W p then 1 else 0) +
  ((if k = "CNP" then (counted fl W p).length else 0) + (counted fl W p).countP fun a => decide (IsCol k a.2))

theorem pairStep_skip (fl : Flags) (W : Nat → SG) (p : SPair) (st : Row × Attrs) (h : ¬ Kept fl W p) :
    pairStep fl W p st = .ok st := by
  unfold pairStep
  dsimp only
  have h1 := rootsAligned_iff W p
  have h2 := failed_iff W p
  unfold Kept at h
  by_cases hf : ((W p.source).failed || (W p.target).failed) && !fl.withFailed
  · rw [if_pos hf]
  · rw [if_neg hf, if_pos]
    rw [← h1, ← h2] at h
    revert h hf
    cases (W p.source).failed || (W p.target).failed <;> cases fl.withFailed <;> cases fl.withUnalignedRoots <;>
      cases rootsAligned W p <;> simp

theorem pairStep_kept (fl : Flags) (W : Nat → SG) (p : SPair) (st : Row × Attrs) (h : Kept fl W p) :
    pairStep fl W p st = countPair fl W p (decide (Failed W p)) (decide (¬ RootLink W p)) st := by
  unfold pairStep
  dsimp only
  have h1 := rootsAligned_iff W p
  have h2 := failed_iff W p
  have e1 : (!rootsAligned W p) = decide (¬ RootLink W p) := by
    by_cases hr : RootLink W p
    · simp [hr, h1.2 hr]
    · simp [hr]; by_contra hc; exact hr (h1.1 (by simpa using hc))
  have e2 : ((W p.source).failed || (W p.target).failed) = decide (Failed W p) := by
    by_cases hr : Failed W p
    · simp only [hr, h2.2 hr, decide_true]
    · simp only [hr, decide_false]; by_contra hc; exact hr (h2.1 (by rwa [Bool.not_eq_false] at hc))
  rw [e1, e2]
  unfold Kept at h
  rw [if_neg, if_neg]
  · rcases h.2 with h | h <;> simp [h]
  · rcases h.1 with h | h <;> simp [h]

theorem countPair_ok (fl : Flags) (W : Nat → SG) (p : SPair) (st : Row × Attrs) (ht : fl.threshold = 0)
    (hn : NodesExist W p) (hr : ∀ a ∈ p.align, Counted fl W p a → a.2 ∈ relations) :
    ∃ st', countPair fl W p (decide (Failed W p)) (decide (¬ RootLink W p)) st = .ok st' ∧
      (∀ k, st'.1 k = st.1 k + contrib fl W p k) ∧
      (∀ g, st'.2.gFrom g = st.2.gFrom g + if p.source = g then 1 else 0) ∧
      (∀ g, st'.2.gTo g = st.2.gTo g + if p.target = g then 1 else 0) ∧
      (∀ g, st'.2.rootOk g = (st.2.rootOk g && !decide (¬ RootLink W p ∧ (p.source = g ∨ p.target = g)))) ∧
      (∀ g n, st'.2.nFrom g n = st.2.nFrom g n +
        (counted fl W p).countP (fun a => decide (p.source = g ∧ a.1.1 = n))) ∧
      (∀ g n, st'.2.nTo g n = st.2.nTo g n +
        (counted fl W p).countP (fun a => decide (p.target = g ∧ a.1.2 = n))) := by
  unfold countPair
  rw [if_neg (by simpa using ht)]
  dsimp only
  unfold nodePairStats
  obtain ⟨st', g1, g2, ⟨g3a, g3b, g3c⟩, g4, g5⟩ := nodeLoop fl W p p.align hn hr
    ((if (!decide (Failed W p) && !decide (¬ RootLink W p)) = true then
      inc (if decide (¬ RootLink W p) = true then
        inc (if decide (Failed W p) = true then inc (inc st.1 "CGP") "CGPFP" else inc st.1 "CGP") "CGPUR"
        else if decide (Failed W p) = true then inc (inc st.1 "CGP") "CGPFP" else inc st.1 "CGP") "CGPFU"
      else if decide (¬ RootLink W p) = true then
        inc (if decide (Failed W p) = true then inc (inc st.1 "CGP") "CGPFP" else inc st.1 "CGP") "CGPUR"
        else if decide (Failed W p) = true then inc (inc st.1 "CGP") "CGPFP" else inc st.1 "CGP"),
      if decide (¬ RootLink W p) = true then markRoots p st.2 else st.2)
  rw [g1]
  refine ⟨_, rfl, ?_, ?_, ?_, ?_, ?_, ?_⟩
  · intro k
    simp only [g2 k]
    unfold contrib counted
    by_cases hF : Failed W p <;> by_cases hR : RootLink W p <;> simp only [hF, hR, inc_apply, decide_true, decide_false,
      not_true_eq_false, not_false_eq_true, Bool.not_true, Bool.not_false, Bool.and_true, Bool.and_false,
      Bool.false_eq_true, if_true, if_false, and_true, and_false, true_and, false_and] <;> omega
  · intro g
    simp only [markGraphs, g3a]
    by_cases hR : RootLink W p <;> by_cases hg : g = p.source <;> simp [hR, hg, markRoots] <;> exact fun h => hg h.symm
  · intro g
    simp only [markGraphs, g3b]
    by_cases hR : RootLink W p <;> by_cases hg : g = p.target <;> simp [hR, hg, markRoots] <;> exact fun h => hg h.symm
  · intro g
    simp only [markGraphs, g3c]
    by_cases hR : RootLink W p
    · simp [hR]
    · clear g1 g2 g3a g3b g3c g4 g5
      have hsw : (g = p.source ∨ g = p.target) ↔ (p.source = g ∨ p.target = g) :=
        ⟨fun h => h.imp Eq.symm Eq.symm, fun h => h.imp Eq.symm Eq.symm⟩
      simp only [hR, not_false_eq_true, decide_true, if_true, markRoots, hsw, true_and]
      by_cases hg : p.source = g ∨ p.target = g
      · rw [if_pos hg]; simp [hg]
      · rw [if_neg hg]; simp [hg]
  · intro g n
    simp only [markGraphs, g4]
    unfold counted
    by_cases hR : RootLink W p <;> simp [hR, markRoots]
  · intro g n
    simp only [markGraphs, g5]
    unfold counted
    by_cases hR : RootLink W p <;> simp [hR, markRoots]

/-- All graph pairs. -/
theorem pairs_ok (fl : Flags) (W : Nat → SG) (pairs : List SPair) (st : Row × Attrs) (ht : fl.threshold = 0)
    (hn : ∀ p ∈ pairs, Kept fl W p → NodesExist W p)
    (hr : ∀ x ∈ links fl W pairs, x.2.2 ∈ relations) :
    ∃ st', graphPairStats fl W pairs st = .ok st' ∧
      (∀ k, st'.1 k = st.1 k + ((kept fl W pairs).map fun p => contrib fl W p k).sum) ∧
      (∀ g, st'.2.gFrom g = st.2.gFrom g + (kept fl W pairs).countP fun p => decide (p.source = g)) ∧
      (∀ g, st'.2.gTo g = st.2.gTo g + (kept fl W pairs).countP fun p => decide (p.target = g)) ∧
      (∀ g, st'.2.rootOk g = (st.2.rootOk g &&
        !decide (∃ p ∈ kept fl W pairs, ¬ RootLink W p ∧ (p.source = g ∨ p.target = g)))) ∧
      (∀ g n, st'.2.nFrom g n = st.2.nFrom g n +
        (links fl W pairs).countP (fun x => decide (x.1.source = g ∧ x.2.1.1 = n))) ∧
      (∀ g n, st'.2.nTo g n = st.2.nTo g n +
        (links fl W pairs).countP (fun x => decide (x.1.target = g ∧ x.2.1.2 = n))) := by
  unfold graphPairStats
  induction pairs generalizing st with
  | nil => exact ⟨st, rfl, by simp [kept], by simp [kept], by simp [kept], by simp [kept], by simp [links, kept],
      by simp [links, kept]⟩
  | cons p pairs ih =>
    unfold Py.forIn
    by_cases hk : Kept fl W p
    · have hkc : kept fl W (p :: pairs) = p :: kept fl W pairs := by
        unfold kept; rw [List.filter_cons_of_pos (by simpa using hk)]
      have hlc : links fl W (p :: pairs) = (counted fl W p).map (fun a => (p, a)) ++ links fl W pairs := by
        unfold links; rw [hkc, List.flatMap_cons]
      have hrp : ∀ a ∈ p.align, Counted fl W p a → a.2 ∈ relations := by
        intro a ha hc
        refine hr (p, a) ?_
        rw [hlc]
        refine List.mem_append_left _ (List.mem_map.2 ⟨a, ?_, rfl⟩)
        unfold counted
        exact List.mem_filter.2 ⟨ha, by simpa using hc⟩
      obtain ⟨s1, e1, a1, a2, a3, a4, a5, a6⟩ := countPair_ok fl W p st ht (hn p (by simp) hk) hrp
      rw [pairStep_kept fl W p st hk, e1]
      obtain ⟨s2, e2, b1, b2, b3, b4, b5, b6⟩ := ih s1 (fun q hq => hn q (by simp [hq]))
        (fun x hx => hr x (by rw [hlc]; exact List.mem_append_right _ hx))
      refine ⟨s2, e2, ?_, ?_, ?_, ?_, ?_, ?_⟩
      · intro k; rw [b1, a1, hkc]; simp only [List.map_cons, List.sum_cons]; omega
      · intro g; rw [b2, a2, hkc, List.countP_cons]; simp only [decide_eq_true_eq]; omega
      · intro g; rw [b3, a3, hkc, List.countP_cons]; simp only [decide_eq_true_eq]; omega
      · intro g
        rw [b4, a4, hkc, Bool.and_assoc]
        congr 1
        rw [← Bool.not_or, ← Bool.decide_or]
        congr 1
        simp only [List.mem_cons, exists_eq_or_imp]
      · intro g n
        rw [b5, a5, hlc, List.countP_append, List.countP_map]
        simp only [Function.comp_def]; omega
      · intro g n
        rw [b6, a6, hlc, List.countP_append, List.countP_map]
        simp only [Function.comp_def]; omega
    · rw [pairStep_skip fl W p st hk]
      have hkc : kept fl W (p :: pairs) = kept fl W pairs := by
        unfold kept; rw [List.filter_cons_of_neg (by simpa using hk)]
      have hlc : links fl W (p :: pairs) = links fl W pairs := by unfold links; rw [hkc]
      rw [hkc, hlc]
      exact ih st (fun q hq => hn q (by simp [hq])) (fun x hx => hr x (by rw [hlc]; exact hx))

/-! ### Graph banks -/

theorem bankNode_ok (fl : Flags) (at' : Attrs) (g : Nat) (l : List (String × List String)) (r : Row) (k : String) :
    (l.foldl (fun r n => bankNode fl at' g n r) r) k = r k +
      (if k = "CN" then (l.filter fun n => decide (Visible fl n.2)).length else 0) +
      (if k = "CNA" then ((l.filter fun n => decide (Visible fl n.2)).map Prod.fst).countP (nodeAligned at' g)
        else 0) +
      (if k = "CNU" then ((l.filter fun n => decide (Visible fl n.2)).map Prod.fst).countP
        (fun n => !nodeAligned at' g n) else 0) := by
  induction l generalizing r with
  | nil => simp
  | cons n l ih =>
    rw [List.foldl_cons, ih]
    have hb : bankNode fl at' g n r = if Visible fl n.2 then
        (if nodeAligned at' g n.1 then inc (inc r "CN") "CNA" else inc (inc r "CN") "CNU") else r := by
      unfold bankNode Visible
      simp only [punct_iff]
      by_cases e1 : n.2 = [] <;> by_cases e3 : Punct n.2 <;> cases fl.withEmpty <;> cases fl.withPunc <;> simp [e1, e3] <;>
        simp_all
    rw [hb]
    by_cases hv : Visible fl n.2
    · rw [List.filter_cons_of_pos (by simpa using hv), if_pos hv, List.map_cons, List.countP_cons, List.countP_cons,
        List.length_cons]
      cases ha : nodeAligned at' g n.1
      all_goals
        simp only [Bool.false_eq_true, if_false, inc_apply, Bool.not_true, Bool.not_false, if_true]
        split_ifs <;> omega
    · rw [List.filter_cons_of_neg (by simpa using hv), if_neg hv]

/-- The graph counts, given the attributes. -/
def BankKept (fl : Flags) (W : Nat → SG) (at' : Attrs) (g : Nat) : Prop :=
  (fl.withFailed = true ∨ (W g).failed = false) ∧ (fl.withUnalignedRoots = true ∨ at'.rootOk g = true) ∧
  (fl.withUnalignedGraphs = true ∨ graphAligned at' g = true)

/-- What a graph adds to a column. -/
noncomputable def bcontrib (fl : Flags) (W : Nat → SG) (at' : Attrs) (k : String) (g : Nat) : Nat :=
  (if k = "CGFP" ∧ (W g).failed = true ∧ fl.withFailed = true then 1 else 0) +
  (if k = "CGUR" ∧ (fl.withFailed = true ∨ (W g).failed = false) ∧ at'.rootOk g = false ∧ fl.withUnalignedRoots = true
    then 1 else 0) +
  if BankKept fl W at' g then
    (if k = "CGU" ∧ graphAligned at' g = false then 1 else 0) +
    (if k = "CGA" ∧ graphAligned at' g = true then 1 else 0) +
    (if k = "CGSA" ∧ graphAligned at' g = true ∧ graphSingle at' g = true then 1 else 0) +
    (if k = "CGMA" ∧ graphAligned at' g = true ∧ graphSingle at' g = false then 1 else 0) +
    (if k = "CG" then 1 else 0) +
    (if k = "CT" then (shownTokens fl (W g)).length else 0) +
    ((if k = "CN" then (shownNodes fl (W g)).length else 0) +
     (if k = "CNA" then (shownNodes fl (W g)).countP (nodeAligned at' g) else 0) +
     (if k = "CNU" then (shownNodes fl (W g)).countP (fun n => !nodeAligned at' g n) else 0))
  else 0

theorem countTokens_eq (fl : Flags) (g : SG) : countTokens g fl.withPunc = (shownTokens fl g).length := by
  unfold countTokens shownTokens
  cases fl.withPunc
  · simp [DaesoGraph.inPunct]
  · simp

theorem bankStep_ok (fl : Flags) (W : Nat → SG) (at' : Attrs) (g : Nat) (r : Row) (ht : fl.threshold = 0) :
    ∃ r', bankStep fl W at' g r = .ok r' ∧ ∀ k, r' k = r k + bcontrib fl W at' k g := by
  unfold bankStep bcontrib
  by_cases h1 : (W g).failed = true ∧ fl.withFailed = false
  · refine ⟨r, by simp [h1], ?_⟩
    intro k; simp [h1, BankKept]
  · have h1' : ¬ (((W g).failed && !fl.withFailed) = true) := by simpa using h1
    rw [if_neg h1']
    dsimp only
    have h1'' : fl.withFailed = true ∨ (W g).failed = false := by
      cases hx : (W g).failed <;> cases hy : fl.withFailed <;> simp_all
    have hCF : ∀ k, (if (W g).failed = true then inc r "CGFP" else r) k =
        r k + if k = "CGFP" ∧ (W g).failed = true ∧ fl.withFailed = true then 1 else 0 := by
      intro k
      cases hx : (W g).failed
      · simp
      · have : fl.withFailed = true := by simpa [hx] using h1''
        simp [inc_apply, this]
    generalize (if (W g).failed = true then inc r "CGFP" else r) = r1 at hCF
    by_cases h2 : at'.rootOk g = false ∧ fl.withUnalignedRoots = false
    · refine ⟨r1, by simp [h2], ?_⟩
      intro k; rw [hCF]; simp [h2, BankKept]
    · have h2' : ¬ ((!at'.rootOk g && !fl.withUnalignedRoots) = true) := by simpa using h2
      rw [if_neg h2']
      have h2'' : fl.withUnalignedRoots = true ∨ at'.rootOk g = true := by
        cases hx : at'.rootOk g <;> cases hy : fl.withUnalignedRoots <;> simp_all
      have hUR : ∀ k, (if (!at'.rootOk g) = true then inc r1 "CGUR" else r1) k =
          r1 k + if k = "CGUR" ∧ (fl.withFailed = true ∨ (W g).failed = false) ∧ at'.rootOk g = false ∧
            fl.withUnalignedRoots = true then 1 else 0 := by
        intro k
        cases hx : at'.rootOk g
        · have : fl.withUnalignedRoots = true := by simpa [hx] using h2''
          simp [inc_apply, this, h1'']
        · simp
      generalize (if (!at'.rootOk g) = true then inc r1 "CGUR" else r1) = r2 at hUR
      rw [if_neg (by simpa using ht)]
      by_cases h3 : graphAligned at' g = false ∧ fl.withUnalignedGraphs = false
      · refine ⟨r2, by simp [h3], ?_⟩
        intro k; rw [hUR, hCF]; simp [h3, BankKept]; omega
      · have h3' : ¬ ((!graphAligned at' g && !fl.withUnalignedGraphs) = true) := by simpa using h3
        have h3'' : fl.withUnalignedGraphs = true ∨ graphAligned at' g = true := by
          cases hx : graphAligned at' g <;> cases hy : fl.withUnalignedGraphs <;> simp_all
        rw [if_neg h3']
        refine ⟨_, rfl, ?_⟩
        intro k
        have hk : BankKept fl W at' g := ⟨h1'', h2'', h3''⟩
        rw [bankNode_ok]
        simp only [hk, if_true]
        have hlen : ((W g).nodes.filter fun n => decide (Visible fl n.2)).length = (shownNodes fl (W g)).length := by
          unfold shownNodes; simp
        have hct := countTokens_eq fl (W g)
        have hx : (if k = "CT" then inc (if (!graphAligned at' g) = true then inc r2 "CGU"
              else if graphSingle at' g = true then inc (inc r2 "CGA") "CGSA" else inc (inc r2 "CGA") "CGMA") "CG" k +
                countTokens (W g) fl.withPunc
            else inc (if (!graphAligned at' g) = true then inc r2 "CGU"
              else if graphSingle at' g = true then inc (inc r2 "CGA") "CGSA" else inc (inc r2 "CGA") "CGMA") "CG" k) =
            r2 k + ((if k = "CGU" ∧ graphAligned at' g = false then 1 else 0) +
              (if k = "CGA" ∧ graphAligned at' g = true then 1 else 0) +
              (if k = "CGSA" ∧ graphAligned at' g = true ∧ graphSingle at' g = true then 1 else 0) +
              (if k = "CGMA" ∧ graphAligned at' g = true ∧ graphSingle at' g = false then 1 else 0) +
              (if k = "CG" then 1 else 0) +
              (if k = "CT" then (shownTokens fl (W g)).length else 0)) := by
          rw [hct]
          cases graphAligned at' g <;> cases graphSingle at' g <;>
            simp only [inc_apply, Bool.not_true, Bool.not_false, Bool.false_eq_true, if_true, if_false, and_true, and_false,
              true_and, false_and, reduceCtorEq] <;> split <;> omega
        rw [hx, hlen, hUR, hCF]
        unfold shownNodes
        omega

theorem bank_ok (fl : Flags) (W : Nat → SG) (at' : Attrs) (bank : List Nat) (r : Row) (ht : fl.threshold = 0) :
    ∃ r', graphStats fl W at' bank r = .ok r' ∧ ∀ k, r' k = r k + (bank.map (bcontrib fl W at' k)).sum := by
  unfold graphStats
  induction bank generalizing r with
  | nil => exact ⟨r, rfl, by simp⟩
  | cons g bank ih =>
    obtain ⟨r1, e1, h1⟩ := bankStep_ok fl W at' g r ht
    obtain ⟨r2, e2, h2⟩ := ih r1
    refine ⟨r2, by unfold Py.forIn; rw [e1]; exact e2, ?_⟩
    intro k; rw [h2, h1]; simp only [List.map_cons, List.sum_cons]; omega

end Verif.Stats
