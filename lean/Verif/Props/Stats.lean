import Verif.Lemmas.StatsCounts
import Verif.Lemmas.TextAlign

/-! Property C49 (lib/daeso/pgc/pgcstats.py, lib/daeso/gb/gbstats.py, lib/daeso/stats/table.py). -/
namespace Verif.Props.Stats
open Verif Verif.Stats Verif.Spec.Stats
open Classical

/-- A corpus whose statistics can be computed: no threshold, alignments between existing nodes, known relations. -/
def Proper (fl : Flags) (c : SCorpus) : Prop :=
  fl.threshold = 0 ∧ (∀ p ∈ c.pairs, Kept fl c.graph p → NodesExist c.graph p) ∧
  ∀ x ∈ links fl c.graph c.pairs, x.2.2 ∈ relations

private theorem mapM_banks (fl : Flags) (W : Nat → SG) (at' : Attrs) (ht : fl.threshold = 0) (banks : List (List Nat)) :
    ∃ rs, banks.mapM (fun bank => graphStats fl W at' bank zeroRow) = .ok rs ∧
      List.Forall₂ (fun bank (r : Row) => ∀ k, r k = (bank.map (bcontrib fl W at' k)).sum) banks rs := by
  induction banks with
  | nil => exact ⟨[], rfl, .nil⟩
  | cons b banks ih =>
    obtain ⟨rs, h1, h2⟩ := ih
    obtain ⟨r, h3, h4⟩ := bank_ok fl W at' b zeroRow ht
    refine ⟨r :: rs, ?_, .cons (fun k => by rw [h4]; simp [zeroRow]) h2⟩
    simp only [List.mapM_cons, h3, h1, bind, Except.bind, pure, Except.pure]

/-- What the row of a corpus says. -/
structure PairRow (fl : Flags) (c : SCorpus) (r : Row) : Prop where
  cgp : r "CGP" = (kept fl c.graph c.pairs).length
  cgpfp : r "CGPFP" = (kept fl c.graph c.pairs).countP fun p => decide (Failed c.graph p)
  cgpur : r "CGPUR" = (kept fl c.graph c.pairs).countP fun p => decide (¬ RootLink c.graph p)
  cgpfu : r "CGPFU" = (kept fl c.graph c.pairs).countP fun p => decide (¬ Failed c.graph p ∧ RootLink c.graph p)
  cnp : r "CNP" = (links fl c.graph c.pairs).length
  ceq : r "CEQ" = (links fl c.graph c.pairs).countP fun x => decide (x.2.2 = "equals")
  cre : r "CRE" = (links fl c.graph c.pairs).countP fun x => decide (x.2.2 = "restates")
  cspec : r "CSPEC" = (links fl c.graph c.pairs).countP fun x => decide (x.2.2 = "specifies")
  cgen : r "CGEN" = (links fl c.graph c.pairs).countP fun x => decide (x.2.2 = "generalizes")
  cint : r "CINT" = (links fl c.graph c.pairs).countP fun x => decide (x.2.2 = "intersects")

/-- What the row of a graph bank says. -/
structure BankRow (fl : Flags) (c : SCorpus) (bank : List Nat) (r : Row) : Prop where
  cg : r "CG" = (bankKept fl c.graph c.pairs bank).length
  cga : r "CGA" = (bankKept fl c.graph c.pairs bank).countP fun g => decide (Aligned fl c.graph c.pairs g)
  cgu : r "CGU" = (bankKept fl c.graph c.pairs bank).countP fun g => decide (¬ Aligned fl c.graph c.pairs g)
  cgsa : r "CGSA" = (bankKept fl c.graph c.pairs bank).countP fun g => decide (Single fl c.graph c.pairs g)
  cgma : r "CGMA" = (bankKept fl c.graph c.pairs bank).countP
    fun g => decide (Aligned fl c.graph c.pairs g ∧ ¬ Single fl c.graph c.pairs g)
  cgfp : r "CGFP" = bank.countP fun g => decide ((c.graph g).failed = true ∧ fl.withFailed = true)
  cgur : r "CGUR" = bank.countP fun g => decide (RootUnaligned fl c.graph c.pairs g)
  ct : r "CT" = ((bankKept fl c.graph c.pairs bank).map fun g => (shownTokens fl (c.graph g)).length).sum
  cn : r "CN" = ((bankKept fl c.graph c.pairs bank).map fun g => (shownNodes fl (c.graph g)).length).sum
  cna : r "CNA" = ((bankKept fl c.graph c.pairs bank).map fun g => (shownNodes fl (c.graph g)).countP
    fun n => decide (NodeAligned fl c.graph c.pairs g n)).sum
  cnu : r "CNU" = ((bankKept fl c.graph c.pairs bank).map fun g => (shownNodes fl (c.graph g)).countP
    fun n => decide (¬ NodeAligned fl c.graph c.pairs g n)).sum

private theorem countP_filter_sum (bank : List Nat) (K P : Nat → Prop) (d1 : DecidablePred fun g => K g ∧ P g)
    (d2 : DecidablePred K) (d3 : DecidablePred P) :
    (bank.map fun g => @ite _ (K g ∧ P g) (d1 g) 1 0).sum =
      (bank.filter fun g => @decide _ (d2 g)).countP fun g => @decide _ (d3 g) := by
  induction bank with
  | nil => rfl
  | cons g bank ih =>
    rw [List.map_cons, List.sum_cons, ih]
    by_cases hk : K g
    · rw [List.filter_cons_of_pos (by simpa using hk), List.countP_cons]
      by_cases hp : P g <;> simp [hk, hp]; omega
    · rw [List.filter_cons_of_neg (by simpa using hk)]
      simp [hk]

private theorem sum_filter (bank : List Nat) (K : Nat → Prop) (f : Nat → Nat) :
    (bank.map fun g => if K g then f g else 0).sum = ((bank.filter fun g => decide (K g)).map f).sum := by
  induction bank with
  | nil => rfl
  | cons g bank ih =>
    rw [List.map_cons, List.sum_cons, ih]
    by_cases hk : K g
    · rw [List.filter_cons_of_pos (by simpa using hk)]; simp [hk]
    · rw [List.filter_cons_of_neg (by simpa using hk)]; simp [hk]

/-- C49.  The row of a corpus counts exactly the graph pairs and alignments that are not excluded; the row of a bank counts
exactly its graphs, tokens and nodes that are not excluded, and how they take part in the pairs and alignments counted. -/
theorem stats_exact (fl : Flags) (c : SCorpus) (hc : Proper fl c) :
    ∃ r rs, corpusStats fl c = .ok (r, rs) ∧ PairRow fl c r ∧ List.Forall₂ (BankRow fl c) c.banks rs := by
  obtain ⟨ht, hn, hr⟩ := hc
  obtain ⟨⟨r, at'⟩, e, h1, h2, h3, h4, h5, h6⟩ := pairs_ok fl c.graph c.pairs (zeroRow, pristine) ht hn hr
  obtain ⟨rs, e', hb⟩ := mapM_banks fl c.graph at' ht c.banks
  refine ⟨r, rs, ?_, ?_, ?_⟩
  · unfold corpusStats; rw [e]; dsimp only; rw [e']
  · obtain ⟨a1, a2, a3, a4, a5, a6, a7, a8, a9, a10⟩ := row_counts fl c.graph c.pairs r (fun k => by
      simpa [zeroRow] using h1 k)
    exact ⟨a1, a2, a3, a4, a5, a6, a7, a8, a9, a10⟩
  · dsimp only at h2 h3 h4 h5 h6
    have hA : ∀ g, graphAligned at' g = true ↔ Aligned fl c.graph c.pairs g := by
      intro g
      unfold graphAligned Aligned
      rw [h2, h3]
      simp only [pristine, Nat.zero_add, Bool.or_eq_true, decide_eq_true_eq, ne_eq, List.countP_eq_zero, not_forall,
        not_not, exists_prop]
      constructor
      · rintro (⟨p, hp, h⟩ | ⟨p, hp, h⟩)
        · exact ⟨p, hp, Or.inl h⟩
        · exact ⟨p, hp, Or.inr h⟩
      · rintro ⟨p, hp, h | h⟩
        · exact Or.inl ⟨p, hp, h⟩
        · exact Or.inr ⟨p, hp, h⟩
    have hS : ∀ g, graphSingle at' g = true ↔ Single fl c.graph c.pairs g := by
      intro g
      unfold graphSingle Single
      rw [h2, h3]
      simp [pristine]
    have hN : ∀ g n, nodeAligned at' g n = true ↔ NodeAligned fl c.graph c.pairs g n := by
      intro g n
      unfold nodeAligned NodeAligned
      rw [h5, h6]
      simp only [pristine, Nat.zero_add, Bool.or_eq_true, decide_eq_true_eq, ne_eq, List.countP_eq_zero, not_forall,
        not_not, exists_prop]
      constructor
      · rintro (⟨p, hp, h⟩ | ⟨p, hp, h⟩)
        · exact ⟨p, hp, Or.inl h⟩
        · exact ⟨p, hp, Or.inr h⟩
      · rintro ⟨p, hp, h | h⟩
        · exact Or.inl ⟨p, hp, h⟩
        · exact Or.inr ⟨p, hp, h⟩
    have hR : ∀ g, at'.rootOk g = false ↔ RootUnaligned fl c.graph c.pairs g := by
      intro g
      rw [h4]
      simp only [pristine, Bool.true_and, Bool.not_eq_false', decide_eq_true_eq]
      rfl
    have hRk : ∀ g, RootUnaligned fl c.graph c.pairs g → fl.withUnalignedRoots = true ∧
        (fl.withFailed = true ∨ (c.graph g).failed = false) := by
      rintro g ⟨p, hp, hl, hg⟩
      unfold kept at hp
      obtain ⟨-, hp⟩ := List.mem_filter.1 hp
      have hp : Kept fl c.graph p := by simpa using hp
      refine ⟨hp.2.resolve_right hl, hp.1.imp id ?_⟩
      intro hf
      unfold Failed at hf
      simp only [not_or, Bool.not_eq_true] at hf
      rcases hg with rfl | rfl
      exacts [hf.1, hf.2]
    have hK : ∀ g, BankKept fl c.graph at' g ↔ GraphKept fl c.graph c.pairs g := by
      intro g
      unfold BankKept GraphKept
      rw [hA]
      have : fl.withUnalignedRoots = true ∨ at'.rootOk g = true := by
        cases hx : at'.rootOk g
        · exact Or.inl (hRk g ((hR g).1 hx)).1
        · exact Or.inr rfl
      tauto
    have hSA : ∀ g, Single fl c.graph c.pairs g → Aligned fl c.graph c.pairs g := by
      intro g h
      rcases h with h | h
      · obtain ⟨p, hp, hq⟩ := List.countP_pos_iff.1 (Nat.lt_of_lt_of_eq Nat.one_pos h.symm)
        exact ⟨p, hp, Or.inl (by simpa using hq)⟩
      · obtain ⟨p, hp, hq⟩ := List.countP_pos_iff.1 (Nat.lt_of_lt_of_eq Nat.one_pos h.symm)
        exact ⟨p, hp, Or.inr (by simpa using hq)⟩
    have hA' : ∀ g, graphAligned at' g = false ↔ ¬ Aligned fl c.graph c.pairs g := by
      intro g; rw [← hA]; simp
    have hS' : ∀ g, graphSingle at' g = false ↔ ¬ Single fl c.graph c.pairs g := by
      intro g; rw [← hS]; simp
    refine hb.imp ?_
    intro bank b h
    have hna : ∀ g, (fun n => nodeAligned at' g n) = fun n => decide (NodeAligned fl c.graph c.pairs g n) := by
      intro g; funext n
      rw [Bool.eq_iff_iff, hN]; simp
    have hnu : ∀ g, (fun n => !nodeAligned at' g n) = fun n => decide (¬ NodeAligned fl c.graph c.pairs g n) := by
      intro g; funext n
      rw [Bool.eq_iff_iff, Bool.not_eq_true', ← Bool.not_eq_true, hN]; simp
    constructor
    · rw [h, bankKept, ← List.countP_eq_length_filter, ← sum_ite _ _ (fun g => inferInstance)]
      refine congrArg _ (List.map_congr_left fun g _ => ?_)
      simp [bcontrib, hK]
    · rw [h, bankKept, ← countP_filter_sum _ _ _ (fun g => inferInstance)]
      refine congrArg _ (List.map_congr_left fun g _ => ?_)
      by_cases hk : GraphKept fl c.graph c.pairs g <;> simp [bcontrib, hK, hA, hk]
    · rw [h, bankKept, ← countP_filter_sum _ _ (fun g => ¬ Aligned fl c.graph c.pairs g) (fun g => inferInstance)]
      refine congrArg _ (List.map_congr_left fun g _ => ?_)
      by_cases hk : GraphKept fl c.graph c.pairs g <;> simp [bcontrib, hK, hA', hk]
    · rw [h, bankKept, ← countP_filter_sum _ _ _ (fun g => inferInstance)]
      refine congrArg _ (List.map_congr_left fun g _ => ?_)
      have := hSA g
      by_cases hk : GraphKept fl c.graph c.pairs g <;> by_cases hs : Single fl c.graph c.pairs g <;>
        simp [bcontrib, hK, hA, hS, hk, hs]
      exact this hs
    · rw [h, bankKept, ← countP_filter_sum _ _ (fun g => Aligned fl c.graph c.pairs g ∧ ¬ Single fl c.graph c.pairs g)
        (fun g => inferInstance)]
      refine congrArg _ (List.map_congr_left fun g _ => ?_)
      by_cases hk : GraphKept fl c.graph c.pairs g <;> simp [bcontrib, hK, hA, hS', hk]
    · rw [h, ← sum_ite _ (fun g => (c.graph g).failed = true ∧ fl.withFailed = true) (fun g => inferInstance)]
      refine congrArg _ (List.map_congr_left fun g _ => ?_)
      simp [bcontrib]
    · rw [h, ← sum_ite _ _ (fun g => inferInstance)]
      refine congrArg _ (List.map_congr_left fun g _ => ?_)
      have := hRk g
      by_cases hu : RootUnaligned fl c.graph c.pairs g
      · simp [bcontrib, hR, hu, (this hu).1, (this hu).2]
      · simp [bcontrib, hR, hu]
    · rw [h, bankKept, ← sum_filter]
      refine congrArg _ (List.map_congr_left fun g _ => ?_)
      simp [bcontrib, hK]
    · rw [h, bankKept, ← sum_filter]
      refine congrArg _ (List.map_congr_left fun g _ => ?_)
      simp [bcontrib, hK]
    · rw [h, bankKept, ← sum_filter]
      refine congrArg _ (List.map_congr_left fun g _ => ?_)
      rw [← hna g]
      simp [bcontrib, hK]
    · rw [h, bankKept, ← sum_filter]
      refine congrArg _ (List.map_congr_left fun g _ => ?_)
      rw [← hnu g]
      simp [bcontrib, hK]

/-- C49.  An alignment counted with an unknown relation raises AssertionError. -/
theorem unknown_relation (fl : Flags) (c : SCorpus) (ht : fl.threshold = 0)
    (hn : ∀ p ∈ c.pairs, Kept fl c.graph p → NodesExist c.graph p)
    (hr : ∃ x ∈ links fl c.graph c.pairs, x.2.2 ∉ relations) : corpusStats fl c = .error .assertionError := by
  have H : ∀ (pairs : List SPair) (st : Row × Attrs), (∀ p ∈ pairs, Kept fl c.graph p → NodesExist c.graph p) →
      (∃ x ∈ links fl c.graph pairs, x.2.2 ∉ relations) →
      graphPairStats fl c.graph pairs st = .error .assertionError := by
    intro pairs
    unfold graphPairStats
    induction pairs with
    | nil => intro st _ h; simp [links, kept] at h
    | cons p pairs ih =>
      intro st hn hr
      unfold Py.forIn
      by_cases hk : Kept fl c.graph p
      · have hlc : links fl c.graph (p :: pairs) = (counted fl c.graph p).map (fun a => (p, a)) ++
            links fl c.graph pairs := by
          unfold links kept; rw [List.filter_cons_of_pos (by simpa using hk), List.flatMap_cons]
        rw [pairStep_kept fl c.graph p st hk]
        by_cases hb : ∃ a ∈ p.align, Counted fl c.graph p a ∧ a.2 ∉ relations
        · have : ∀ f u, countPair fl c.graph p f u st = .error .assertionError := by
            intro f u
            unfold countPair
            rw [if_neg (by simpa using ht)]
            dsimp only
            unfold nodePairStats
            rw [nodeLoop_error fl c.graph p p.align (hn p (by simp) hk) hb]
          rw [this]
        · obtain ⟨s1, e1, -⟩ := countPair_ok fl c.graph p st ht (hn p (by simp) hk) (by
            intro a ha hc; by_contra hx; exact hb ⟨a, ha, hc, hx⟩)
          rw [e1]
          refine ih s1 (fun q hq => hn q (by simp [hq])) ?_
          obtain ⟨x, hx, hxr⟩ := hr
          rw [hlc] at hx
          rcases List.mem_append.1 hx with hx | hx
          · obtain ⟨a, ha, rfl⟩ := List.mem_map.1 hx
            unfold counted at ha
            obtain ⟨h1, h2⟩ := List.mem_filter.1 ha
            exact absurd ⟨a, h1, by simpa using h2, hxr⟩ hb
          · exact ⟨x, hx, hxr⟩
      · rw [pairStep_skip fl c.graph p st hk]
        have hlc : links fl c.graph (p :: pairs) = links fl c.graph pairs := by
          unfold links kept; rw [List.filter_cons_of_neg (by simpa using hk)]
        exact ih st (fun q hq => hn q (by simp [hq])) (by rw [hlc] at hr; exact hr)
  unfold corpusStats
  rw [H _ _ hn hr]

/-! ### Identities, whatever the input -/

/-- The identities of a row for a corpus. -/
structure PairIds (r : Row) : Prop where
  relations : r "CNP" = r "CEQ" + r "CRE" + r "CSPEC" + r "CGEN" + r "CINT"
  full : r "CGPFU" ≤ r "CGP"
  failed : r "CGPFP" ≤ r "CGP"
  unaligned : r "CGPUR" ≤ r "CGP"
  cover : r "CGP" ≤ r "CGPFU" + r "CGPFP" + r "CGPUR"
  disjoint : r "CGPFU" + r "CGPFP" ≤ r "CGP" ∧ r "CGPFU" + r "CGPUR" ≤ r "CGP"

/-- The identities of a row for a bank. -/
structure BankIds (r : Row) : Prop where
  graphs : r "CG" = r "CGA" + r "CGU"
  aligned : r "CGA" = r "CGSA" + r "CGMA"
  nodes : r "CN" = r "CNA" + r "CNU"

private theorem nodes_ids (fl : Flags) (W : Nat → SG) (p : SPair) (st st' : Row × Attrs) (h : PairIds st.1)
    (e : nodePairStats fl W p st = .ok st') : PairIds st'.1 := by
  refine TextAlign.forIn_partial (fun s => PairIds s.1) h ?_ e
  intro a _ s s' hs he
  unfold nodeStep at he
  split at he
  · simp at he
  · injection he with he; exact he ▸ hs
  · split at he
    · simp at he
    · rename_i c hc
      split at he
      · simp at he
      · split at he
        · simp at he
        · injection he with he
          subst he
          have hcol : IsCol c a.2 := hc
          rw [isCol_iff] at hcol
          obtain ⟨i1, i2, i3, i4, i5, i6, i7⟩ := hs
          rcases hcol with ⟨rfl, -⟩ | ⟨rfl, -⟩ | ⟨rfl, -⟩ | ⟨rfl, -⟩ | ⟨rfl, -⟩ <;> constructor <;>
            simp [inc_apply] <;> omega

private theorem pairs_ids (fl : Flags) (W : Nat → SG) (pairs : List SPair) (st' : Row × Attrs)
    (e : graphPairStats fl W pairs (zeroRow, pristine) = .ok st') : PairIds st'.1 := by
  refine TextAlign.forIn_partial (fun s => PairIds s.1) ?_ ?_ e
  · constructor <;> simp [zeroRow]
  · intro p _ s s' hs he
    by_cases hk : Kept fl W p
    · rw [pairStep_kept fl W p s hk] at he
      generalize decide (Failed W p) = f at he
      generalize decide (¬ RootLink W p) = u at he
      unfold countPair at he
      by_cases ht : fl.threshold ≠ 0
      · rw [if_pos ht] at he; simp at he
      · rw [if_neg ht] at he
        dsimp only at he
        split at he
        · simp at he
        · rename_i r at' hx
          injection he with he
          subst he
          refine nodes_ids fl W p _ (r, at') ?_ hx
          obtain ⟨i1, i2, i3, i4, i5, i6, i7⟩ := hs
          cases f <;> cases u <;> constructor <;> simp [inc_apply] <;> omega
    · rw [pairStep_skip fl W p s hk] at he
      injection he with he
      exact he ▸ hs

private theorem bank_ids (fl : Flags) (W : Nat → SG) (at' : Attrs) (bank : List Nat) (r : Row)
    (e : graphStats fl W at' bank zeroRow = .ok r) : BankIds r := by
  by_cases ht : fl.threshold = 0
  · obtain ⟨r', e', h⟩ := bank_ok fl W at' bank zeroRow ht
    rw [e, Except.ok.injEq] at e'
    subst e'
    have hz : ∀ k, r k = (bank.map (bcontrib fl W at' k)).sum := fun k => by rw [h]; simp [zeroRow]
    have hadd : ∀ (u v w : Nat → Nat), (∀ x, u x = v x + w x) →
        (bank.map u).sum = (bank.map v).sum + (bank.map w).sum := by
      intro u v w hx
      clear e hz h
      induction bank with
      | nil => rfl
      | cons x l ih => simp only [List.map_cons, List.sum_cons, hx x, ih]; omega
    constructor
    · rw [hz, hz, hz]
      refine hadd _ _ _ fun g => ?_
      unfold bcontrib
      by_cases hk : BankKept fl W at' g <;> cases ha : graphAligned at' g <;> simp [hk]
    · rw [hz, hz, hz]
      refine hadd _ _ _ fun g => ?_
      unfold bcontrib
      by_cases hk : BankKept fl W at' g <;> cases ha : graphAligned at' g <;> cases hs : graphSingle at' g <;> simp [hk]
    · rw [hz, hz, hz]
      refine hadd _ _ _ fun g => ?_
      unfold bcontrib
      by_cases hk : BankKept fl W at' g
      · simp only [hk, if_true]
        simp
        have := List.length_eq_countP_add_countP (nodeAligned at' g) (l := shownNodes fl (W g))
        simpa using this
      · simp [hk]
  · refine TextAlign.forIn_partial BankIds (by constructor <;> simp [zeroRow]) ?_ e
    intro g _ s s' hs he
    unfold bankStep at he
    have ht : fl.threshold ≠ 0 := ht
    by_cases h1 : ((W g).failed && !fl.withFailed) = true
    · rw [if_pos h1] at he; injection he with he; exact he ▸ hs
    · rw [if_neg h1] at he
      dsimp only at he
      by_cases h2 : (!at'.rootOk g && !fl.withUnalignedRoots) = true
      · rw [if_pos h2] at he; injection he with he
        subst he
        obtain ⟨i1, i2, i3⟩ := hs
        cases (W g).failed <;> constructor <;> simp [inc_apply] <;> omega
      · rw [if_neg h2, if_pos ht] at he; simp at he

/-- C49.  The identities hold in every table that is computed: for each row, and for the overalls. -/
theorem identities (fl : Flags) (cs : List SCorpus) (rows banks : List Row) (h : pgcStats fl cs = .ok (rows, banks)) :
    (∀ r ∈ rows, PairIds r) ∧ (∀ r ∈ banks, BankIds r) ∧ PairIds (overall rows) ∧ BankIds (overall banks) := by
  have hmap : ∀ (bs : List (List Nat)) (W : Nat → SG) (at' : Attrs) (rs : List Row),
      bs.mapM (fun bank => graphStats fl W at' bank zeroRow) = .ok rs → ∀ r ∈ rs, BankIds r := by
    intro bs W at'
    induction bs with
    | nil => intro rs h; simp only [List.mapM_nil, pure, Except.pure, Except.ok.injEq] at h; subst h; simp
    | cons b bs ih =>
      intro rs h
      simp only [List.mapM_cons, bind, Except.bind, pure, Except.pure] at h
      split at h
      · simp at h
      · rename_i r hr
        split at h
        · simp at h
        · rename_i rs' hrs
          injection h with h
          subst h
          intro x hx
          rcases List.mem_cons.1 hx with rfl | hx
          · exact bank_ids fl W at' b _ hr
          · exact ih rs' hrs x hx
  have hall : ∀ (cs : List SCorpus) (l : List (Row × List Row)), cs.mapM (corpusStats fl) = .ok l →
      ∀ x ∈ l, PairIds x.1 ∧ ∀ r ∈ x.2, BankIds r := by
    intro cs
    induction cs with
    | nil => intro l h; simp only [List.mapM_nil, pure, Except.pure, Except.ok.injEq] at h; subst h; simp
    | cons c cs ih =>
      intro l h
      simp only [List.mapM_cons, bind, Except.bind, pure, Except.pure] at h
      split at h
      · simp at h
      · rename_i y hy
        split at h
        · simp at h
        · rename_i l' hl
          injection h with h
          subst h
          intro x hx
          rcases List.mem_cons.1 hx with rfl | hx
          · unfold corpusStats at hy
            split at hy
            · simp at hy
            · rename_i r at' hp
              split at hy
              · simp at hy
              · rename_i rs hrs
                injection hy with hy
                subst hy
                exact ⟨pairs_ids fl c.graph c.pairs _ hp, hmap _ _ _ _ hrs⟩
          · exact ih l' hl x hx
  unfold pgcStats at h
  split at h
  · simp at h
  · rename_i l hl
    injection h with h
    rw [Prod.mk.injEq] at h
    obtain ⟨rfl, rfl⟩ := h
    have H := hall cs l hl
    have h1 : ∀ r ∈ l.map Prod.fst, PairIds r := by
      intro r hr
      obtain ⟨x, hx, rfl⟩ := List.mem_map.1 hr
      exact (H x hx).1
    have h2 : ∀ r ∈ (l.map Prod.snd).flatten, BankIds r := by
      intro r hr
      obtain ⟨y, hy, hr⟩ := List.mem_flatten.1 hr
      obtain ⟨x, hx, rfl⟩ := List.mem_map.1 hy
      exact (H x hx).2 r hr
    refine ⟨h1, h2, ?_, ?_⟩
    · generalize l.map Prod.fst = rows at h1
      clear h2 H hl
      induction rows with
      | nil => constructor <;> simp [overall]
      | cons r rows ih =>
        obtain ⟨i1, i2, i3, i4, i5, i6, i7⟩ := ih fun x hx => h1 x (by simp [hx])
        obtain ⟨j1, j2, j3, j4, j5, j6, j7⟩ := h1 r (by simp)
        unfold overall at *
        constructor <;> simp only [List.map_cons, List.sum_cons] <;> omega
    · generalize (l.map Prod.snd).flatten = rows at h2
      clear h1 H hl
      induction rows with
      | nil => constructor <;> simp [overall]
      | cons r rows ih =>
        obtain ⟨i1, i2, i3⟩ := ih fun x hx => h2 x (by simp [hx])
        obtain ⟨j1, j2, j3⟩ := h2 r (by simp)
        unfold overall at *
        constructor <;> simp only [List.map_cons, List.sum_cons] <;> omega

/-! ### Percentages -/

/-- C49.  A percentage never divides by zero; it lies between 0 and 100 when the first count is part of the second. -/
theorem percentage (a b : Nat) : ∃ q, share a b = .ok q ∧ (b = 0 → q = 0) ∧ (b ≠ 0 → q = (a : ℚ) / b * 100) ∧
    (a ≤ b → 0 ≤ q ∧ q ≤ 100) := by
  unfold share
  by_cases hb : b = 0
  · exact ⟨0, by simp [hb], fun _ => rfl, fun h => absurd hb h, fun _ => by norm_num⟩
  · have hb' : (b : ℚ) ≠ 0 := by exact_mod_cast hb
    refine ⟨(a : ℚ) / b * 100, ?_, fun h => absurd h hb, fun _ => rfl, ?_⟩
    · rw [if_pos hb]; unfold percent Py.div; rw [if_neg hb']
    · intro h
      have h1 : (0:ℚ) < b := by
        have : 0 < b := Nat.pos_of_ne_zero hb
        exact_mod_cast this
      have h2 : (a:ℚ) ≤ b := by exact_mod_cast h
      have h3 : (a:ℚ) / b ≤ 1 := by rw [div_le_one h1]; exact h2
      have h4 : (0:ℚ) ≤ (a:ℚ) / b := by positivity
      constructor <;> linarith

/-- C49.  The percentages of the relations add up to 100, if there are alignments; so do those of single and multiple
alignment among the aligned graphs. -/
theorem percentages_add (r : Row) :
    (PairIds r → r "CNP" ≠ 0 → ∃ a b c d e : ℚ, share (r "CEQ") (r "CNP") = .ok a ∧ share (r "CRE") (r "CNP") = .ok b ∧
      share (r "CSPEC") (r "CNP") = .ok c ∧ share (r "CGEN") (r "CNP") = .ok d ∧ share (r "CINT") (r "CNP") = .ok e ∧
      a + b + c + d + e = 100) ∧
    (BankIds r → r "CGA" ≠ 0 → ∃ a b : ℚ, share (r "CGSA") (r "CGA") = .ok a ∧ share (r "CGMA") (r "CGA") = .ok b ∧
      a + b = 100) := by
  constructor
  · intro h h0
    obtain ⟨a, a1, -, a2, -⟩ := percentage (r "CEQ") (r "CNP")
    obtain ⟨b, b1, -, b2, -⟩ := percentage (r "CRE") (r "CNP")
    obtain ⟨c, c1, -, c2, -⟩ := percentage (r "CSPEC") (r "CNP")
    obtain ⟨d, d1, -, d2, -⟩ := percentage (r "CGEN") (r "CNP")
    obtain ⟨e, e1, -, e2, -⟩ := percentage (r "CINT") (r "CNP")
    refine ⟨a, b, c, d, e, a1, b1, c1, d1, e1, ?_⟩
    rw [a2 h0, b2 h0, c2 h0, d2 h0, e2 h0]
    have h1 : (r "CNP" : ℚ) ≠ 0 := by exact_mod_cast h0
    have h2 : (r "CNP" : ℚ) = r "CEQ" + r "CRE" + r "CSPEC" + r "CGEN" + r "CINT" := by exact_mod_cast h.relations
    field_simp
    linarith
  · intro h h0
    obtain ⟨a, a1, -, a2, -⟩ := percentage (r "CGSA") (r "CGA")
    obtain ⟨b, b1, -, b2, -⟩ := percentage (r "CGMA") (r "CGA")
    refine ⟨a, b, a1, b1, ?_⟩
    rw [a2 h0, b2 h0]
    have h1 : (r "CGA" : ℚ) ≠ 0 := by exact_mod_cast h0
    have h2 : (r "CGA" : ℚ) = r "CGSA" + r "CGMA" := by exact_mod_cast h.aligned
    field_simp
    linarith

/-- C49.  An average is the quotient of the totals, 0 if there is nothing to divide by. -/
theorem average_exact (a b : Nat) : ∃ q, average a b = .ok q ∧ (b = 0 → q = 0) ∧ (b ≠ 0 → q * b = a) := by
  unfold average
  by_cases hb : b = 0
  · exact ⟨0, by simp [hb], fun _ => rfl, fun h => absurd hb h⟩
  · have hb' : (b : ℚ) ≠ 0 := by exact_mod_cast hb
    refine ⟨(a : ℚ) / b, ?_, fun h => absurd h hb, fun _ => by field_simp⟩
    rw [if_pos hb]; unfold Py.div; rw [if_neg hb']

/-- C49.  The statistics of graph banks without corpus are those of the same banks with a corpus without graph pairs:
they count all graphs, those with failed parses if asked for, and their tokens and nodes. -/
theorem banks_alone_exact (W : Nat → SG) (banks : List (List Nat)) (e f p : Bool) :
    ∃ rs, gbStats W banks e f p 0 = .ok rs ∧ List.Forall₂ (fun bank r =>
      r "CG" = (bank.filter fun g => f || !(W g).failed).length ∧
      r "CT" = ((bank.filter fun g => f || !(W g).failed).map fun g =>
        (shownTokens { withPunc := p } (W g)).length).sum ∧
      r "CN" = ((bank.filter fun g => f || !(W g).failed).map fun g =>
        (shownNodes { withEmpty := e, withPunc := p } (W g)).length).sum ∧
      r "CGFP" = if f then bank.countP fun g => (W g).failed else 0) banks rs := by
  obtain ⟨rs, h1, h2⟩ := mapM_banks (bankFlags e f p 0) W pristine rfl banks
  refine ⟨rs, h1, h2.imp fun bank r h => ?_⟩
  have hk : ∀ g, BankKept (bankFlags e f p 0) W pristine g ↔ (f || !(W g).failed) = true := by
    intro g
    simp [BankKept, bankFlags]
  have hK : ∀ (k : String) (w : Nat → Nat), (∀ g, bcontrib (bankFlags e f p 0) W pristine k g =
      if BankKept (bankFlags e f p 0) W pristine g then w g else 0) →
      r k = ((bank.filter fun g => f || !(W g).failed).map w).sum := by
    intro k w hw
    rw [h]
    clear h h1 h2
    induction bank with
    | nil => rfl
    | cons g bank ih =>
      rw [List.map_cons, List.sum_cons, ih, hw]
      by_cases hg : (f || !(W g).failed) = true
      · rw [if_pos ((hk g).2 hg), List.filter_cons_of_pos (by exact hg)]; rfl
      · rw [if_neg (mt (hk g).1 hg), List.filter_cons_of_neg (by exact hg)]; simp
  refine ⟨?_, ?_, ?_, ?_⟩
  · rw [hK "CG" (fun _ => 1) (fun g => by simp [bcontrib])]
    simp
  · exact hK "CT" _ (fun g => by simp [bcontrib]; rfl)
  · exact hK "CN" _ (fun g => by simp [bcontrib]; rfl)
  · rw [h]
    clear h h1 h2 hK
    induction bank with
    | nil => simp
    | cons g bank ih =>
      rw [List.map_cons, List.sum_cons, ih, List.countP_cons]
      cases hf : f <;> cases hg : (W g).failed <;> simp [bcontrib, bankFlags, hg]
      omega

/-! ### Limits of the code -/

/-- C49.  The statistics of graph banks without corpus never report an aligned graph or node. -/
theorem banks_alone (W : Nat → SG) (banks : List (List Nat)) (e f p : Bool) :
    ∃ rs, gbStats W banks e f p 0 = .ok rs ∧ ∀ r ∈ rs, r "CGA" = 0 ∧ r "CNA" = 0 ∧ r "CG" = r "CGU" ∧ r "CN" = r "CNU" ∧
      r "CGUR" = 0 := by
  obtain ⟨rs, h1, h2⟩ := mapM_banks (bankFlags e f p 0) W pristine rfl banks
  refine ⟨rs, h1, ?_⟩
  intro r hr
  obtain ⟨b, -, hb⟩ : ∃ b ∈ banks, ∀ k, r k = (b.map (bcontrib (bankFlags e f p 0) W pristine k)).sum := by
    clear h1
    induction h2 with
    | nil => simp at hr
    | cons h _ ih =>
      rcases List.mem_cons.1 hr with rfl | hr
      · exact ⟨_, by simp, h⟩
      · obtain ⟨b, hb, hx⟩ := ih hr; exact ⟨b, by simp [hb], hx⟩
  have hA : ∀ g, graphAligned pristine g = false := fun g => rfl
  have hN : ∀ g, nodeAligned pristine g = fun _ => false := fun g => rfl
  have hz : ∀ (f : Nat → Nat), (∀ g, f g = 0) → (b.map f).sum = 0 := by
    intro f hf
    rw [List.sum_eq_zero_iff_forall_eq_nat]
    intro x hx
    obtain ⟨g, -, rfl⟩ := List.mem_map.1 hx
    exact hf g
  have hids := bank_ids (bankFlags e f p 0) W pristine b r (by
    obtain ⟨r', e1, e2⟩ := bank_ok (bankFlags e f p 0) W pristine b zeroRow rfl
    rw [e1]; congr 1; funext k; rw [e2, hb]; simp [zeroRow])
  have c1 : r "CGA" = 0 := by rw [hb]; exact hz _ fun g => by simp [bcontrib, hA]
  have c2 : r "CNA" = 0 := by rw [hb]; exact hz _ fun g => by simp [bcontrib, hN]
  have c3 : r "CGUR" = 0 := by rw [hb]; exact hz _ fun g => by simp [bcontrib, pristine]
  exact ⟨c1, c2, by rw [hids.graphs, c1]; omega, by rw [hids.nodes, c2]; omega, c3⟩

/-- C49.  A threshold is not implemented: the first graph pair that counts raises NotImplementedError. -/
theorem threshold_raises (fl : Flags) (c : SCorpus) (ht : fl.threshold ≠ 0) (hp : kept fl c.graph c.pairs ≠ []) :
    corpusStats fl c = .error .notImplemented := by
  have H : ∀ (pairs : List SPair) (st : Row × Attrs), kept fl c.graph pairs ≠ [] →
      graphPairStats fl c.graph pairs st = .error .notImplemented := by
    intro pairs
    unfold graphPairStats
    induction pairs with
    | nil => intro st h; simp [kept] at h
    | cons p pairs ih =>
      intro st h
      unfold Py.forIn
      by_cases hk : Kept fl c.graph p
      · rw [pairStep_kept fl c.graph p st hk]
        unfold countPair
        rw [if_pos ht]
      · rw [pairStep_skip fl c.graph p st hk]
        refine ih st ?_
        unfold kept at h ⊢
        rwa [List.filter_cons_of_neg (by simpa using hk)] at h
  unfold corpusStats
  rw [H _ _ hp]

/-- A graph with one node. -/
def oneNode (failed : Bool) : SG := ⟨failed, some "0", ["x"], [("0", ["x"])]⟩

/-- Three pairs from one source graph, the other way round for one. -/
def sample : SCorpus :=
  ⟨fun g => if g = 9 then oneNode true else oneNode false,
   [⟨0, 1, [(("0", "0"), "equals")]⟩, ⟨0, 2, [(("0", "0"), "restates")]⟩, ⟨0, 9, [(("0", "0"), "equals")]⟩],
   [[0], [1, 2, 9, 4]]⟩

example : ((gbStats sample.graph sample.banks false true false 0).map fun x => x.map fun r => ["CG", "CN", "CGFP"].map r) =
    .ok [[1, 1, 0], [4, 4, 1]] := by decide +kernel

example : ((corpusStats {} sample).map fun x => ["CGP", "CNP", "CEQ", "CRE"].map x.1) = .ok [2, 2, 1, 1] := by
  decide +kernel

example : ((corpusStats {} sample).map fun x => x.2.map fun r => ["CG", "CGA", "CGU", "CGSA", "CGMA", "CNA"].map r) =
    .ok [[1, 1, 0, 0, 1, 1], [2, 2, 0, 2, 0, 2]] := by decide +kernel

/-- A failed parse is counted although its graph is not: the percentage of failed parses is infinite or above 100. -/
example : ((corpusStats { withFailed := true } ⟨fun g => oneNode (g = 8 || g = 9),
      [⟨0, 9, [(("0", "0"), "equals")]⟩], [[8, 9, 7]]⟩).map fun x => x.2.map fun r => ["CG", "CGFP"].map r) =
    .ok [[1, 2]] := by decide +kernel

/-- A graph with one pair as source and two as target counts as aligned once. -/
example : ((corpusStats {} ⟨fun _ => oneNode false, [⟨0, 1, [(("0", "0"), "equals")]⟩,
      ⟨2, 0, [(("0", "0"), "equals")]⟩, ⟨3, 0, [(("0", "0"), "equals")]⟩], [[0]]⟩).map fun x =>
    x.2.map fun r => ["CGSA", "CGMA"].map r) = .ok [[1, 0]] := by decide +kernel

end Verif.Props.Stats
