import Verif.Lemmas.Reader
import Verif.Props.Corpus

/-! Properties C38, C39 and C47 (lib/daeso/pgc/corpus.py, classes PGCParser and PGCGenerator;
lib/daeso/gb/graphbank.py; lib/daeso/gb/graphstub.py). -/
namespace Verif.Props.Pgc
open Verif Verif.Etree Verif.Corpus Verif.Pgc Verif.Spec Verif.Spec.Pgc Verif.Props.Corpus

variable {γ : Type}

/-! ### C38: reading what was written -/

/-- What a corpus must satisfy to be written and read back: banks can be compared, the alignments are those of some
history of a graph pair, relations are sorted, stripped and not empty, the path shown in the file leads back to the
bank, formats and graph ids are not empty, and metadata elements have their name and hold no tags of the corpus
format. -/
structure Writable (stat : String → Option Nat) (env : Env γ) (w : World) (format : Nat → String)
    (shown : String → Text) (c : Corpus) : Prop where
  comparable : Comparable stat w c.pairs
  aligned : ∀ p ∈ c.pairs, ∃ ops errs, GraphPair.run true Graph.empty ops = .ok ((w.gp p).align, errs)
  ids : ∀ p ∈ c.pairs, (w.gp p).sourceId ≠ "" ∧ (w.gp p).targetId ≠ ""
  files : ∀ b, Uses w c.pairs b → format b ≠ "" ∧ strip env.ws (shown (w.path b)) ≠ [] ∧
    env.resolve (strip env.ws (shown (w.path b))) = (w.path b).toList
  sorted : (w.rels c.rel).Pairwise (· ≤ ·)
  stripped : ∀ r ∈ w.rels c.rel, strip env.ws r.toList = r.toList ∧ r ≠ ""
  metas : ∀ p ∈ c.pairs, (w.gp p).meta.elem.children ≠ [] →
    (w.gp p).meta.elem.tag = "graph_meta_data" ∧ ForeignList (w.gp p).meta.elem.children
  corpusMeta : ∀ m, c.meta = some m → m.elem.children ≠ [] →
    m.elem.tag = "corpus_meta_data" ∧ ForeignList m.elem.children

private theorem aligned_list {g : Graph.G String String} {ops : List (GraphPair.Op String String)} {errs : List Bool}
    (h : GraphPair.run true Graph.empty ops = .ok (g, errs)) :
    ∃ (l : List ((String × String) × String)) (M : Alignment String String),
      GraphPair.alignments g none = .ok l ∧ ListOneToOne l ∧ (∀ a b, GraphPair.getAlign g a b = .ok (M a b)) ∧
      ∀ a b r, ((a, b), r) ∈ l ↔ M a b = some r := by
  obtain ⟨g', e1, e2⟩ := GraphPair.matching_refines ops
  have : g' = g := by rw [e1] at h; simp only [Except.ok.injEq, Prod.mk.injEq] at h; exact h.1
  subst this
  obtain ⟨l, l1, l2, l3, l4⟩ := e2.all
  refine ⟨l, _, l1, ⟨l2, ?_⟩, e2.get, l4⟩
  rintro ⟨⟨a, b⟩, r⟩ hx ⟨⟨a', b'⟩, r'⟩ hy
  exact GraphPair.matching_one_to_one ops h (by rw [e2.get, (l4 _ _ _).1 hx]) (by rw [e2.get, (l4 _ _ _).1 hy])

private theorem sameRest_bank {stat : String → Option Nat} {w : World} {format : Nat → String}
    {s s' : State γ} (hb : SameBanks s s') {b : Nat} {id : String} :
    BankIs stat w format s' b id ↔ BankIs stat w format s b id := by
  have hk := hb (some id)
  constructor
  · rintro ⟨bk, b', h1, h2, h3, h4⟩
    rw [h1] at hk
    simp only [Option.map_some] at hk
    obtain ⟨bk', k1, k2⟩ := Option.map_eq_some_iff.1 hk.symm
    simp only [Prod.mk.injEq] at k2
    exact ⟨bk', b', k1, h2, k2.1.trans h3, k2.2.trans h4⟩
  · rintro ⟨bk, b', h1, h2, h3, h4⟩
    rw [h1] at hk
    simp only [Option.map_some] at hk
    obtain ⟨bk', k1, k2⟩ := Option.map_eq_some_iff.1 hk
    simp only [Prod.mk.injEq] at k2
    exact ⟨bk', b', k1, h2, k2.1.trans h3, k2.2.trans h4⟩

private theorem corpusIs_of {stat : String → Option Nat} {env : Env γ} {w : World} {format : Nat → String}
    {shown : String → Text} {c : Corpus} (hw : Writable stat env w format shown c) {R : Elem → Elem → Prop}
    {bt : BankTable} (hbt : BT (Uses w c.pairs) (fun a b => SameFile stat (w.path a) (w.path b)) bt) {s : State γ}
    (h : CorpusRead (fun a b => SameFile stat (w.path a) (w.path b)) R
      (fun b => env.resolve (strip env.ws (shown (w.path b)))) format bt.banks w c s) :
    CorpusIs stat w format R c s := by
  have hbank : ∀ j b, bt.banks[j]? = some b → ∃ bk, s.banks.get? (some (toString (j + 1))) = some bk ∧
      bk.path = (w.path b).toList ∧ bk.format = some (format b) := by
    intro j b hj
    obtain ⟨bk, h1, h2, h3, -⟩ := h.banks.get j b hj
    have hu : Uses w c.pairs b := by
      obtain ⟨k, hk⟩ := (hbt.vals b).2 (List.mem_iff_getElem?.2 ⟨j, hj⟩)
      exact (hbt.tab.mem _ _ hk).2.1
    exact ⟨bk, h1, h2.trans (hw.files b hu).2.2, h3⟩
  refine ⟨h.relations, h.metaIs, ?_, ?_⟩
  · have hp := h.pairs
    rw [List.forall₂_iff_get] at hp ⊢
    refine ⟨hp.1, fun i h1 h2 => ?_⟩
    have hi := hp.2 i h1 h2
    generalize hpi : c.pairs.get ⟨i, h1⟩ = p at *
    generalize s.pairs.get ⟨i, h2⟩ = pp at *
    have hpm : p ∈ c.pairs := hpi ▸ List.get_mem _ _
    obtain ⟨j1, b1, a1, a2, a3⟩ := hi.source
    obtain ⟨j2, b2, a4, a5, a6⟩ := hi.target
    obtain ⟨bk1, c1, c2, c3⟩ := hbank _ _ a1
    obtain ⟨bk2, c4, c5, c6⟩ := hbank _ _ a4
    obtain ⟨l, M, d1, d2, d3⟩ := hi.align
    obtain ⟨ops, errs, hops⟩ := hw.aligned p hpm
    obtain ⟨l', M', f1, f2, f3, f4⟩ := aligned_list hops
    rw [f1] at d1
    simp only [Except.ok.injEq] at d1
    subst d1
    refine ⟨⟨bk1, b1, a3 ▸ c1, a2, c2, c3⟩, ⟨bk2, b2, a6 ▸ c4, a5, c5, c6⟩, hi.sourceId, hi.targetId, hi.metaIs, ?_, ?_⟩
    · intro a b
      rw [d2.get, f3]
      simp only [Except.map]
      congr 1
      cases hM : M' a b with
      | some r => exact (d3 _ _ _).2 ⟨a, b, r, rfl, rfl, rfl, (f4 _ _ _).2 hM⟩
      | none =>
        cases hQ : M (some a) (some b) with
        | none => rfl
        | some q =>
          obtain ⟨x, y, r, h1, h2, -, h3⟩ := (d3 _ _ _).1 hQ
          simp only [Option.some.injEq] at h1 h2
          subst h1 h2
          rw [(f4 _ _ _).1 h3] at hM
          simp at hM
    · intro x y hxy
      rw [d2.get]
      congr 1
      cases hQ : M x y with
      | none => rfl
      | some q =>
        obtain ⟨a, b, r, rfl, rfl, -, -⟩ := (d3 _ _ _).1 hQ
        simp at hxy
  · have hused : ∀ i, (∃ p ∈ s.pairs, i = p.sourceBank ∨ i = p.targetBank) →
        ∃ j b, bt.banks[j]? = some b ∧ i = toString (j + 1) := by
      rintro i ⟨q, hq, hi⟩
      obtain ⟨x, hx⟩ := List.mem_iff_getElem?.1 hq
      obtain ⟨p, -, hpq⟩ : ∃ p ∈ c.pairs, PairRead (fun a b => SameFile stat (w.path a) (w.path b)) R bt.banks (w.gp p) q := by
        obtain ⟨hlen, hg⟩ := List.forall₂_iff_get.1 h.pairs
        have hlt : x < s.pairs.length := by
          by_contra hc
          rw [List.getElem?_eq_none (by omega)] at hx
          simp at hx
        have := hg x (hlen ▸ hlt) hlt
        rw [List.getElem?_eq_getElem hlt, Option.some.injEq] at hx
        simp only [List.get_eq_getElem, hx] at this
        exact ⟨_, List.getElem_mem _, this⟩
      rcases hi with rfl | rfl
      · obtain ⟨j, b, h1, -, h3⟩ := hpq.source; exact ⟨j, b, h1, h3⟩
      · obtain ⟨j, b, h1, -, h3⟩ := hpq.target; exact ⟨j, b, h1, h3⟩
    rintro b b' i i' ⟨bk, b1, k1, k2, k3, k4⟩ ⟨bk', b1', k1', k2', k3', k4'⟩ hi hi' hbb
    obtain ⟨j, b0, j1, rfl⟩ := hused i hi
    obtain ⟨j', b0', j1', rfl⟩ := hused i' hi'
    obtain ⟨x, x1, x2, -⟩ := hbank _ _ j1
    obtain ⟨x', x1', x2', -⟩ := hbank _ _ j1'
    rw [k1] at x1
    rw [k1'] at x1'
    obtain rfl := Option.some.inj x1
    obtain rfl := Option.some.inj x1'
    have e1 : w.path b1 = w.path b0 := String.toList_inj.1 (k3.symm.trans x2)
    have e1' : w.path b1' = w.path b0' := String.toList_inj.1 (k3'.symm.trans x2')
    have hE : SameFile stat (w.path b0) (w.path b0') := by
      rw [← e1, ← e1']
      exact sameFile_trans (sameFile_symm k2) (sameFile_trans hbb k2')
    have := hbt.uniq (List.mem_iff_getElem?.2 ⟨j, j1⟩) (List.mem_iff_getElem?.2 ⟨j', j1'⟩) hE
    subst this
    obtain ⟨hlt, e⟩ := List.getElem?_eq_some_iff.1 j1
    obtain ⟨hlt', e'⟩ := List.getElem?_eq_some_iff.1 j1'
    rw [(hbt.nodup.getElem_inj_iff).1 (e.trans e'.symm)]

open Classical in
private theorem write_read_aux {stat : String → Option Nat} {env : Env γ} {w : World} {format : Nat → String}
    {shown : String → Text} {c : Corpus} (hw : Writable stat env w format shown c) :
    ∃ t, generate stat w format shown c = .ok t ∧
      ∀ (R : Elem → Elem → Prop), Spaced env.ws R → ∀ t', R t t' → ∀ mode, mode ≠ .all →
        ∃ s, parse env mode (events t') = (if mode = .sparse then loadBanks env .sparse s else .ok s) ∧
          CorpusIs stat w format R c s ∧ (∃ pre, Verif.Pgc.run env mode {} pre = .ok s) ∧
          (∀ k bk, s.banks.get? k = some bk → bk.loaded = false ∧
            ∃ b, Uses w c.pairs b ∧ bk.path = (w.path b).toList ∧ bk.format = some (format b)) := by
  have hE : ∀ a b, Uses w c.pairs a → Uses w c.pairs b →
      bankEq stat (w.path a) (w.path b) = .ok (decide (SameFile stat (w.path a) (w.path b))) := by
    intro a b ha hb
    obtain ⟨x, e1, e2⟩ := bankEq_iff (hw.comparable a b ha hb)
    rw [e1]
    congr 1
    cases x <;> simp_all
  obtain ⟨bt, es, g1, g2, -, g4⟩ := genPairs_spec (B := Uses w c.pairs)
    (E := fun a b => SameFile stat (w.path a) (w.path b)) hE (fun a _ => Or.inl rfl) (fun a b _ _ h => sameFile_symm h)
    w.gp c.pairs 0 _ BT.nil (fun p hp => ⟨⟨p, hp, Or.inl rfl⟩, ⟨p, hp, Or.inr rfl⟩⟩) (by
      intro p hp
      obtain ⟨ops, errs, h⟩ := hw.aligned p hp
      obtain ⟨l, M, h1, -⟩ := aligned_list h
      exact ⟨l, h1⟩)
  refine ⟨_, by unfold generate; rw [g1], ?_⟩
  intro R hR t' ht mode hmode
  obtain ⟨s, h1, h2, h3⟩ := run_corpus env hR hmode g2 g4 (fun b hb => ⟨(hw.files b hb).2.1, (hw.files b hb).1⟩)
    hw.sorted hw.stripped hw.ids (by
      intro p hp l hl
      obtain ⟨ops, errs, h⟩ := hw.aligned p hp
      obtain ⟨l', M, h1, h2, -⟩ := aligned_list h
      rw [hl] at h1
      simp only [Except.ok.injEq] at h1
      exact h1 ▸ h2) hw.metas hw.corpusMeta ht
  refine ⟨s, h1, corpusIs_of hw g2 h2, h3, ?_⟩
  intro k bk hk
  obtain ⟨j, b, hj, rfl⟩ := h2.banks.only k (by rw [hk]; simp)
  obtain ⟨bk', k1, k2, k3, k4⟩ := h2.banks.get j b hj
  rw [hk] at k1
  obtain rfl := Option.some.inj k1
  have hu : Uses w c.pairs b := by
    obtain ⟨k, hk⟩ := (g2.vals b).2 (List.mem_iff_getElem?.2 ⟨j, hj⟩)
    exact (g2.tab.mem _ _ hk).2.1
  exact ⟨k4, b, hu, k2.trans (hw.files b hu).2.2, k3⟩

mutual
theorem spaced_reread_aux (ws : Char → Bool) : ∀ e : Elem, Xml.Respaced ws e (reread e)
  | .mk t a x l c => by
    simp only [reread, Xml.Respaced, true_and]
    have key : ∀ x : Option Text, Xml.SameText ws x (noEmpty x) := by
      intro x
      unfold noEmpty
      split
      · rename_i h; subst h; exact Or.inr ⟨by simp [blank], by simp [blank]⟩
      · exact Or.inl rfl
    exact ⟨key x, key l, spaced_rereadList_aux ws c⟩
theorem spaced_rereadList_aux (ws : Char → Bool) : ∀ l : List Elem, Xml.RespacedList ws l (rereadList l)
  | [] => by simp [rereadList, Xml.RespacedList]
  | e :: l => by
    simp only [rereadList, Xml.RespacedList]
    exact ⟨spaced_reread_aux ws e, spaced_rereadList_aux ws l⟩
end

private theorem sameText_trans {ws : Char → Bool} {x y z : Option Text} (h : Xml.SameText ws x y) (h' : Xml.SameText ws y z) :
    Xml.SameText ws x z := by
  rcases h with rfl | ⟨h1, h2⟩
  · exact h'
  · rcases h' with rfl | ⟨h3, h4⟩
    · exact Or.inr ⟨h1, h2⟩
    · exact Or.inr ⟨h1, h4⟩

mutual
theorem respaced_trans {ws : Char → Bool} : ∀ a b c : Elem, Xml.Respaced ws a b → Xml.Respaced ws b c →
    Xml.Respaced ws a c
  | .mk t a x l c, .mk t' a' x' l' c', .mk t'' a'' x'' l'' c'', h, h' => by
    simp only [Xml.Respaced] at h h' ⊢
    exact ⟨h.1.trans h'.1, h.2.1.trans h'.2.1, sameText_trans h.2.2.1 h'.2.2.1, sameText_trans h.2.2.2.1 h'.2.2.2.1,
      respacedList_trans c c' c'' h.2.2.2.2 h'.2.2.2.2⟩
theorem respacedList_trans {ws : Char → Bool} : ∀ a b c : List Elem, Xml.RespacedList ws a b →
    Xml.RespacedList ws b c → Xml.RespacedList ws a c
  | [], [], [], _, _ => by simp [Xml.RespacedList]
  | a :: l, b :: m, c :: n, h, h' => by
    simp only [Xml.RespacedList] at h h' ⊢
    exact ⟨respaced_trans a b c h.1 h'.1, respacedList_trans l m n h.2 h'.2⟩
  | [], [], _ :: _, _, h' => by simp [Xml.RespacedList] at h'
  | [], _ :: _, _, h, _ => by simp [Xml.RespacedList] at h
  | _ :: _, [], _, h, _ => by simp [Xml.RespacedList] at h
  | _ :: _, _ :: _, [], _, h' => by simp [Xml.RespacedList] at h'
end

private theorem respacedList_forall₂ {ws : Char → Bool} : ∀ a b : List Elem, Xml.RespacedList ws a b →
    List.Forall₂ (Xml.Respaced ws) a b
  | [], [], _ => .nil
  | a :: l, b :: m, h => by
    simp only [Xml.RespacedList] at h
    exact .cons h.1 (respacedList_forall₂ l m h.2)
  | [], _ :: _, h => by simp [Xml.RespacedList] at h
  | _ :: _, [], h => by simp [Xml.RespacedList] at h

theorem spaced_respaced (ws : Char → Bool) : Spaced ws (Xml.Respaced ws) := by
  rintro ⟨t, a, x, l, c⟩ ⟨t', a', x', l', c'⟩ h
  simp only [Xml.Respaced] at h
  exact ⟨h.1, h.2.1, h.2.2.1, respacedList_forall₂ _ _ h.2.2.2.2⟩

theorem spaced_reread (ws : Char → Bool) : Spaced ws (fun e e' => e' = reread e) := by
  rintro ⟨t, a, x, l, c⟩ e' rfl
  have h := spaced_reread_aux ws (.mk t a x l c)
  simp only [reread, Xml.Respaced, true_and] at h
  refine ⟨rfl, rfl, h.1, ?_⟩
  simp only [reread, Elem.children]
  induction c with
  | nil => exact .nil
  | cons e c ih =>
    simp only [rereadList, Xml.RespacedList] at h ⊢
    exact .cons rfl (ih ⟨h.1, h.2.1, h.2.2.2⟩)

/-- C38.  Writing a corpus and reading the file, without loading graphs, gives the same corpus. -/
theorem write_read {stat : String → Option Nat} {env : Env γ} {w : World} {format : Nat → String}
    {shown : String → Text} {c : Corpus} (hw : Writable stat env w format shown c) :
    ∃ t s, generate stat w format shown c = .ok t ∧ parse env .none (events (reread t)) = .ok s ∧
      CorpusIs stat w format (fun e e' => e' = reread e) c s := by
  obtain ⟨t, h1, h2⟩ := write_read_aux hw
  obtain ⟨s, h3, h4, -⟩ := h2 _ (spaced_reread env.ws) _ rfl .none (by simp)
  exact ⟨t, s, h1, by simpa using h3, h4⟩

/-- C38.  Moreover, every bank that is read is one of the banks in use that were written. -/
theorem write_read_banks {stat : String → Option Nat} {env : Env γ} {w : World} {format : Nat → String}
    {shown : String → Text} {c : Corpus} (hw : Writable stat env w format shown c) :
    ∃ t s, generate stat w format shown c = .ok t ∧ parse env .none (events (reread t)) = .ok s ∧
      CorpusIs stat w format (fun e e' => e' = reread e) c s ∧
      ∀ k bk, s.banks.get? k = some bk → ∃ b, Uses w c.pairs b ∧ bk.path = (w.path b).toList ∧ bk.format = some (format b) := by
  obtain ⟨t, h1, h2⟩ := write_read_aux hw
  obtain ⟨s, h3, h4, -, h5⟩ := h2 _ (spaced_reread env.ws) _ rfl .none (by simp)
  exact ⟨t, s, h1, by simpa using h3, h4, fun k bk hk => (h5 k bk hk).2⟩

/-- C38.  Writing a corpus with pretty printing and reading the file, without loading graphs, gives the same corpus
but for white space in metadata. -/
theorem pprint_read {stat : String → Option Nat} {env : Env γ} {w : World} {format : Nat → String}
    {shown : String → Text} {c : Corpus} (hw : Writable stat env w format shown c)
    (h1 : env.ws '\n' = true) (h2 : env.ws ' ' = true) :
    ∃ t s, generate stat w format shown c = .ok t ∧ parse env .none (events (reread (indent env.ws 0 t))) = .ok s ∧
      CorpusIs stat w format (Xml.Respaced env.ws) c s := by
  obtain ⟨t, h3, h4⟩ := write_read_aux hw
  obtain ⟨s, h5, h6, -⟩ := h4 _ (spaced_respaced env.ws) (reread (indent env.ws 0 t))
    (respaced_trans _ _ _ (Etree.indent_respaced h1 h2 0 t) (spaced_reread_aux _ _)) .none (by simp)
  exact ⟨t, s, h3, by simpa using h5, h6⟩

private theorem forall₂_left {α β : Type} {R : α → β → Prop} {l : List α} {m : List β} (h : List.Forall₂ R l m) {b : β}
    (hb : b ∈ m) : ∃ a ∈ l, R a b := by
  induction h with
  | nil => simp at hb
  | cons h1 _ ih =>
    rcases List.mem_cons.1 hb with rfl | hb
    · exact ⟨_, by simp, h1⟩
    · obtain ⟨a, ha, h⟩ := ih hb
      exact ⟨a, by simp [ha], h⟩

private theorem corpusIs_loaded {stat : String → Option Nat} {w : World} {format : Nat → String}
    {R : Elem → Elem → Prop} {c : Corpus} {s s' : State γ} (h : CorpusIs stat w format R c s) (h1 : s'.rels = s.rels)
    (h2 : s'.meta = s.meta) (h3 : List.Forall₂ SameRest s.pairs s'.pairs) (h4 : SameBanks s s') :
    CorpusIs stat w format R c s' := by
  have hb := fun b id => sameRest_bank (stat := stat) (w := w) (format := format) h4 (b := b) (id := id)
  refine ⟨h1.trans h.relations, h2 ▸ h.metaIs, ?_, ?_⟩
  · have hp := h.pairs
    revert hp h3
    generalize s.pairs = l
    generalize s'.pairs = l'
    generalize c.pairs = l0
    intro h3 hp
    induction hp generalizing l' with
    | nil => cases h3; exact .nil
    | cons a1 _ ih =>
      cases h3 with
      | cons b1 b2 =>
        obtain ⟨⟨u1, u2, u3, u4⟩, u5, u6⟩ := b1
        refine .cons ⟨?_, ?_, u3 ▸ a1.sourceId, u4 ▸ a1.targetId, u5 ▸ a1.metaIs, u6 ▸ a1.align, u6 ▸ a1.only⟩ (ih _ b2)
        · rw [hb, ← u1]; exact a1.source
        · rw [hb, ← u2]; exact a1.target
  · intro b b' i i' k1 k2 k3 k4
    rw [hb] at k1 k2
    have tr : ∀ i, (∃ p ∈ s'.pairs, i = p.sourceBank ∨ i = p.targetBank) → ∃ p ∈ s.pairs, i = p.sourceBank ∨ i = p.targetBank := by
      rintro i ⟨q, hq, hi⟩
      obtain ⟨p, hp, ⟨u1, u2, -, -⟩, -⟩ := forall₂_left h3 hq
      exact ⟨p, hp, by rwa [u1, u2]⟩
    exact h.shared b b' i i' k1 k2 (tr i k3) (tr i' k4)

private theorem full_of {env : Env γ} {s : State γ} (h : Inv env s) (hl : ∀ k b, s.banks.get? k = some b → b.loaded = true) :
    ∀ p ∈ s.pairs, Full env s p := by
  intro p hp
  obtain ⟨k1, k2⟩ := h.known p hp
  obtain ⟨b1, k1⟩ := Option.isSome_iff_exists.1 k1
  obtain ⟨b2, k2⟩ := Option.isSome_iff_exists.1 k2
  obtain ⟨⟨i1, r1⟩, q1⟩ := (h.banks _ _ k1).after (hl _ _ k1)
  obtain ⟨⟨i2, r2⟩, q2⟩ := (h.banks _ _ k2).after (hl _ _ k2)
  obtain ⟨v1, w1⟩ := (q1 p hp).1 rfl
  obtain ⟨v2, w2⟩ := (q2 p hp).2 rfl
  obtain ⟨g1, v1⟩ := Option.isSome_iff_exists.1 v1
  obtain ⟨g2, v2⟩ := Option.isSome_iff_exists.1 v2
  exact ⟨⟨b1, i1, _, g1, k1, r1, w1 ▸ v1, v1⟩, ⟨b2, i2, _, g2, k2, r2, w2 ▸ v2, v2⟩⟩

/-- C38, C47.  A corpus that was written and read with sparse loading, when the XML library changes white space (`R`). -/
theorem write_read_loaded {stat : String → Option Nat} {env : Env γ} {w : World} {format : Nat → String}
    {shown : String → Text} {c : Corpus} (hw : Writable stat env w format shown c)
    (hself : ∀ p ∈ c.pairs, ¬ (SameFile stat (w.path (w.gp p).source) (w.path (w.gp p).target) ∧
      (w.gp p).sourceId = (w.gp p).targetId))
    (hread : ∀ b, Uses w c.pairs b → ∀ ids : List String, (∀ i ∈ ids, Wanted stat w c.pairs b i) →
      ∃ gs, env.readSparse (w.path b).toList (some (format b)) ids = .ok gs ∧ ∀ i ∈ ids, (gs.get? i).isSome) :
    ∃ t, generate stat w format shown c = .ok t ∧ ∀ R : Elem → Elem → Prop, Spaced env.ws R → ∀ t', R t t' →
      ∃ s, parse env .sparse (events t') = .ok s ∧ CorpusIs stat w format R c s ∧ (∀ p ∈ s.pairs, Full env s p) ∧
        ∀ k bk, s.banks.get? k = some bk → ∃ b, Uses w c.pairs b ∧ bk.path = (w.path b).toList ∧ bk.format = some (format b) := by
  obtain ⟨t, h1, h2⟩ := write_read_aux hw
  refine ⟨t, h1, fun R hR t' ht => ?_⟩
  obtain ⟨s, h3, h4, ⟨pre, h5⟩, h6⟩ := h2 _ hR _ ht .sparse (by simp)
  rw [if_pos rfl] at h3
  have hI : Inv env s := Inv.run (by simp) pre (Inv.init env) h5
  -- the file of a bank of a graph pair
  have hbk : ∀ b b' id bk, BankIs stat w format s b id → s.banks.get? (some id) = some bk →
      bk.path = (w.path b').toList → SameFile stat (w.path b) (w.path b') := by
    rintro b b' id bk ⟨bk1, b1, e1, e2, e3, -⟩ e4 e5
    rw [e4] at e1
    obtain rfl := Option.some.inj e1
    rwa [String.toList_inj.1 (e5.symm.trans e3)]
  obtain ⟨s', hs'⟩ := hI.loadBanks_total (fun k bk hk => (h6 k bk hk).1) (by
      rintro pp hpp ⟨e1, e2⟩
      obtain ⟨p, hp, hpi⟩ := forall₂_left h4.pairs hpp
      apply hself p hp
      obtain ⟨bk, b1, a1, a2, a3, a4⟩ := hpi.source
      have ht := hpi.target
      rw [← e1] at ht
      exact ⟨sameFile_trans a2 (sameFile_symm (hbk _ _ _ _ ht a1 a3)), by rw [← hpi.sourceId, ← hpi.targetId, e2]⟩) (by
      intro k bk hk
      obtain ⟨l, b, hu, hp, hf⟩ := h6 k bk hk
      rw [hp, hf]
      apply hread b hu
      intro i hi
      obtain ⟨c1, c2, c3, c4⟩ := (hI.banks k bk hk).before l
      rw [AD.mem_keys_iff] at hi
      obtain ⟨cl, hcl⟩ := Option.isSome_iff_exists.1 hi
      obtain ⟨x, hx⟩ := List.exists_mem_of_ne_nil _ (c2 i cl hcl)
      have hC := c3 i
      rw [hcl, Option.getD_some] at hC
      cases hpx : s.pairs[x]? with
      | none => exact absurd hx (hC.2 x hpx)
      | some pp =>
        obtain ⟨p, hpm, hpi⟩ := forall₂_left h4.pairs (List.mem_iff_getElem?.2 ⟨x, hpx⟩)
        refine ⟨p, hpm, ?_⟩
        rcases (hC.mem hpx).1 hx with ⟨e1, e2⟩ | ⟨e1, e2⟩
        · left
          subst e1
          exact ⟨sameFile_symm (hbk _ _ _ _ hpi.source hk hp), by rw [← e2, hpi.sourceId]⟩
        · right
          subst e1
          exact ⟨sameFile_symm (hbk _ _ _ _ hpi.target hk hp), by rw [← e2, hpi.targetId]⟩)
  obtain ⟨q1, q2, q3, q4, q5, q6⟩ := hI.loadBanks hs'
  refine ⟨s', h3.trans hs', corpusIs_loaded h4 q3 q4 q5 q6, full_of q1 q2, ?_⟩
  intro k bk hk
  have hb := q6 k
  rw [hk] at hb
  simp only [Option.map_some] at hb
  obtain ⟨bk', k1, k2⟩ := Option.map_eq_some_iff.1 hb.symm
  simp only [Prod.mk.injEq] at k2
  obtain ⟨-, b, hu, hp, hf⟩ := h6 k bk' k1
  exact ⟨b, hu, k2.1.symm.trans hp, k2.2.symm.trans hf⟩

/-- C38, C47.  Writing a corpus and reading the file with sparse loading gives the same corpus with all graphs, when
the files of the banks have them and no graph is aligned with itself. -/
theorem write_read_sparse {stat : String → Option Nat} {env : Env γ} {w : World} {format : Nat → String}
    {shown : String → Text} {c : Corpus} (hw : Writable stat env w format shown c)
    (hself : ∀ p ∈ c.pairs, ¬ (SameFile stat (w.path (w.gp p).source) (w.path (w.gp p).target) ∧
      (w.gp p).sourceId = (w.gp p).targetId))
    (hread : ∀ b, Uses w c.pairs b → ∀ ids : List String, (∀ i ∈ ids, Wanted stat w c.pairs b i) →
      ∃ gs, env.readSparse (w.path b).toList (some (format b)) ids = .ok gs ∧ ∀ i ∈ ids, (gs.get? i).isSome) :
    ∃ t s, generate stat w format shown c = .ok t ∧ parse env .sparse (events (reread t)) = .ok s ∧
      CorpusIs stat w format (fun e e' => e' = reread e) c s ∧ ∀ p ∈ s.pairs, Full env s p := by
  obtain ⟨t, h1, h2⟩ := write_read_loaded hw hself hread
  obtain ⟨s, h3, h4, h5, -⟩ := h2 _ (spaced_reread env.ws) _ rfl
  exact ⟨t, s, h1, h3, h4, h5⟩

/-! ### C39: references -/

/-- Attributes of the <graph_pair> elements started, in order. -/
def pairStarts (evs : List Event) : List (AD String String) :=
  evs.filterMap fun
    | .start e => if e.tag = "graph_pair" then some e.attrib else none
    | .stop _ => none

/-- The id of a bank is declared: a <file> element with this id has ended. -/
def Declared (evs : List Event) (id : Option String) : Prop :=
  ∃ e, Event.stop e ∈ evs ∧ e.tag = "file" ∧ e.attrib.get? "id" = id

/-- The graph pair has the banks and graph ids of the attributes. -/
def Refers (a : AD String String) (pp : PPair γ) : Prop :=
  a.get? "from_bank_id" = some pp.sourceBank ∧ a.get? "to_bank_id" = some pp.targetBank ∧
  a.get? "from_graph_id" = some pp.sourceId ∧ a.get? "to_graph_id" = some pp.targetId

private theorem forall₂_refers {as : List (AD String String)} {l m : List (PPair γ)} (h : List.Forall₂ Refers as l)
    (h' : List.Forall₂ SameUse l m) : List.Forall₂ Refers as m := by
  induction h generalizing m with
  | nil => cases h'; exact .nil
  | cons a _ ih =>
    cases h' with
    | cons b c =>
      obtain ⟨b1, b2, b3, b4⟩ := b
      exact .cons ⟨b1 ▸ a.1, b2 ▸ a.2.1, b3 ▸ a.2.2.1, b4 ▸ a.2.2.2⟩ (ih c)

private theorem reader_aux (env : Env γ) (mode : Load) : ∀ (evs pre : List Event) (s s' : State γ),
    List.Forall₂ Refers (pairStarts pre) s.pairs → (∀ k, (s.banks.get? k).isSome ↔ Declared pre k) →
    Verif.Pgc.run env mode s evs = .ok s' →
    List.Forall₂ Refers (pairStarts (pre ++ evs)) s'.pairs ∧ ∀ k, (s'.banks.get? k).isSome ↔ Declared (pre ++ evs) k
  | [], pre, s, s', h1, h2, h => by
    rw [run_nil, Except.ok.injEq] at h
    subst h
    simpa using ⟨h1, h2⟩
  | ev :: evs, pre, s, s', h1, h2, h => by
    rw [run_cons] at h
    cases hst : step env mode s ev with
    | error e => rw [hst] at h; simp at h
    | ok s1 =>
      rw [hst] at h
      dsimp only at h
      rw [show pre ++ ev :: evs = (pre ++ [ev]) ++ evs by simp]
      by_cases hev : ∃ e, ev = .start e ∧ e.tag = "graph_pair"
      · obtain ⟨e, rfl, ht⟩ := hev
        have hsp : startPair mode s e.attrib = .ok s1 := by
          rw [← hst]; simp [step, ht]
        obtain ⟨pp, e1, e2, -, -, e5⟩ := startPair_from hsp
        refine reader_aux env mode evs _ s1 s' ?_ ?_ h
        · have : pairStarts (pre ++ [Event.start e]) = pairStarts pre ++ [e.attrib] := by
            simp [pairStarts, List.filterMap_append, ht]
          rw [this, e1]
          exact List.rel_append h1 (.cons e2 .nil)
        · intro k
          rw [e5, h2]
          simp [Declared]
      · have hev' : ∀ e, ev = .start e → e.tag ≠ "graph_pair" := fun e he ht => hev ⟨e, he, ht⟩
        obtain ⟨e1, e2⟩ := step_keeps hst hev'
        refine reader_aux env mode evs _ s1 s' ?_ ?_ h
        · have : pairStarts (pre ++ [ev]) = pairStarts pre := by
            unfold pairStarts
            rw [List.filterMap_append]
            cases ev with
            | start e => simp [hev' e rfl]
            | stop e => simp
          rw [this]
          exact forall₂_refers h1 e1
        · intro k
          rw [e2, h2]
          unfold Declared
          constructor
          · rintro (⟨e, a, b⟩ | ⟨e, rfl, b⟩)
            · exact ⟨e, by simp [a], b⟩
            · exact ⟨e, by simp, b⟩
          · rintro ⟨e, a, b⟩
            rcases List.mem_append.1 a with a | a
            · exact Or.inl ⟨e, a, b⟩
            · exact Or.inr ⟨e, (List.mem_singleton.1 a).symm, b⟩

/-- C39.  The corpus read has one graph pair for each <graph_pair> element, in order, with the banks and graph ids
given there, and all its banks are declared. -/
theorem pairs_as_declared {env : Env γ} {mode : Load} {evs : List Event} {s : State γ} (h : parse env mode evs = .ok s) :
    List.Forall₂ Refers (pairStarts evs) s.pairs ∧ ∀ k, (s.banks.get? k).isSome ↔ Declared evs k := by
  simpa using reader_aux env mode evs [] {} s .nil (by simp [Declared]) h

/-- The relations in a file: the stripped texts of the <relation> elements. -/
def relationTexts (ws : Char → Bool) (evs : List Event) : List String :=
  evs.filterMap fun
    | .start _ => none
    | .stop e => if e.tag = "relation" then e.text.map fun x => String.ofList (strip ws x) else none

private theorem loadBanks_rels {env : Env γ} {mode : Load} (l : List (Option String × Bank γ)) {s s' : State γ}
    (h : Py.forIn l s (loadBank env mode) = .ok s') : s'.relations = s.relations ∧ s'.shared = s.shared := by
  induction l generalizing s with
  | nil => cases h; exact ⟨rfl, rfl⟩
  | cons x l ih =>
    rw [Py.forIn] at h
    cases hx : loadBank env mode x s with
    | error e => simp [hx] at h
    | ok s1 =>
      simp only [hx] at h
      obtain ⟨h1, h2⟩ := ih h
      have : s1.relations = s.relations ∧ s1.shared = s.shared := by
        unfold loadBank at hx
        repeat' split at hx
        all_goals first | (cases hx; exact ⟨rfl, rfl⟩) | simp at hx
      exact ⟨h1.trans this.1, h2.trans this.2⟩

private theorem startPair_rels {mode : Load} {s s' : State γ} {a : AD String String} (h : startPair mode s a = .ok s') :
    s'.relations = s.relations ∧ s'.shared = s.shared := by
  unfold startPair at h
  repeat' split at h
  all_goals first | (cases h; exact ⟨rfl, rfl⟩) | simp at h

private theorem step_rels {env : Env γ} {mode : Load} {s s' : State γ} {ev : Event} (h : step env mode s ev = .ok s')
    (hev : ∀ e, ev = .stop e → e.tag ≠ "relation" ∧ e.tag ≠ "node_relations") :
    s'.relations = s.relations ∧ s'.shared = s.shared := by
  cases ev with
  | start e =>
    unfold step at h
    dsimp only at h
    split at h
    · cases h; exact ⟨rfl, rfl⟩
    split at h
    · exact startPair_rels h
    split at h
    · unfold startNodePair at h
      repeat' split at h
      all_goals first | (cases h; exact ⟨rfl, rfl⟩) | simp at h
    · cases h; exact ⟨rfl, rfl⟩
  | stop e =>
    obtain ⟨n1, n2⟩ := hev e rfl
    unfold step at h
    simp only [n1, n2, if_false] at h
    split at h
    · cases h; exact ⟨rfl, rfl⟩
    split at h
    · unfold endFile at h
      repeat' split at h
      all_goals first | (cases h; exact ⟨rfl, rfl⟩) | simp at h
    split at h
    · split at h
      · exact loadBanks_rels _ h
      · cases h; exact ⟨rfl, rfl⟩
    split at h
    · unfold endGraphMeta at h
      repeat' split at h
      all_goals first | (cases h; exact ⟨rfl, rfl⟩) | simp at h
    split at h
    · split at h
      · exact loadBanks_rels _ h
      · cases h; exact ⟨rfl, rfl⟩
    · cases h; exact ⟨rfl, rfl⟩

private theorem sorted_mergeSort (l : List String) : (l.mergeSort fun x y => decide (x ≤ y)).Pairwise (· ≤ ·) := by
  have := List.pairwise_mergeSort (le := fun x y : String => decide (x ≤ y))
    (by intro a b c; simpa using fun h1 h2 => le_trans h1 h2) (by intro a b; simpa using le_total a b) l
  simpa using this

private theorem endRelations_rels (s : State γ) : (endRelations s).relations.Perm s.relations ∧
    (endRelations s).rels = (endRelations s).relations ∧ (endRelations s).relations.Pairwise (· ≤ ·) := by
  unfold endRelations
  split
  next h => simp [h, State.rels]
  next h => exact ⟨List.mergeSort_perm _ _, by simp [State.rels], sorted_mergeSort _⟩

private theorem run_rels (env : Env γ) (mode : Load) : ∀ (evs : List Event) (s s' : State γ),
    Verif.Pgc.run env mode s evs = .ok s' →
    s'.relations.Perm (s.relations ++ relationTexts env.ws evs) ∧
    ((∀ x, Event.stop x ∈ evs → x.tag ≠ "relation") → s.rels = s.relations → s.relations.Pairwise (· ≤ ·) →
      s'.rels = s'.relations ∧ s'.relations.Pairwise (· ≤ ·))
  | [], s, s', h => by
    rw [run_nil, Except.ok.injEq] at h
    subst h
    exact ⟨by simp [relationTexts], fun _ a b => ⟨a, b⟩⟩
  | ev :: evs, s, s', h => by
    rw [run_cons] at h
    cases hst : step env mode s ev with
    | error e => rw [hst] at h; simp at h
    | ok s1 =>
      rw [hst] at h
      dsimp only at h
      obtain ⟨h1, h2⟩ := run_rels env mode evs s1 s' h
      have key : s1.relations.Perm (s.relations ++ relationTexts env.ws [ev]) ∧
          ((∀ x, ev = .stop x → x.tag ≠ "relation") → s.rels = s.relations → s.relations.Pairwise (· ≤ ·) →
            s1.rels = s1.relations ∧ s1.relations.Pairwise (· ≤ ·)) := by
        by_cases hr : ∃ e, ev = .stop e ∧ e.tag = "relation"
        · obtain ⟨e, rfl, he⟩ := hr
          refine ⟨?_, fun hn => absurd he (hn e rfl)⟩
          have hst' : endRelation env s e = .ok s1 := by rw [← hst]; simp [step, he]
          unfold endRelation at hst'
          cases hx : e.text with
          | none => simp [hx] at hst'
          | some x =>
            simp only [hx, Except.ok.injEq] at hst'
            rw [← hst']
            simp [relationTexts, he, hx]
        · by_cases hn : ∃ e, ev = .stop e ∧ e.tag = "node_relations"
          · obtain ⟨e, rfl, he⟩ := hn
            have hst' : endRelations s = s1 := by
              have : step env mode s (.stop e) = .ok (endRelations s) := by simp [step, he]
              rw [this] at hst
              exact Except.ok.inj hst
            rw [← hst']
            obtain ⟨k1, k2, k3⟩ := endRelations_rels s
            exact ⟨by simpa [relationTexts, he] using k1, fun _ _ _ => ⟨k2, k3⟩⟩
          · obtain ⟨k1, k2⟩ := step_rels hst fun e he => ⟨fun ht => hr ⟨e, he, ht⟩, fun ht => hn ⟨e, he, ht⟩⟩
            refine ⟨?_, fun _ a b => ?_⟩
            · rw [k1]
              cases ev with
              | start e => simp [relationTexts]
              | stop e => simp [relationTexts, show e.tag ≠ "relation" from fun ht => hr ⟨e, rfl, ht⟩]
            · unfold State.rels at a ⊢
              rw [k1, k2]
              exact ⟨a, b⟩
      constructor
      · refine h1.trans ?_
        have : relationTexts env.ws (ev :: evs) = relationTexts env.ws [ev] ++ relationTexts env.ws evs := by
          unfold relationTexts
          rw [← List.filterMap_append]; rfl
        rw [this, ← List.append_assoc]
        exact key.1.append_right _
      · intro hn a b
        obtain ⟨c, d⟩ := key.2 (fun x hx => hn x (by simp [hx])) a b
        exact h2 (fun x hx => hn x (by simp [hx])) c d

/-- C39.  The corpus read has the relations of the <relation> elements, stripped and sorted. -/
theorem relations_as_declared {env : Env γ} {mode : Load} {pre post : List Event} {e : Elem} {s : State γ}
    (he : e.tag = "node_relations") (hpost : ∀ x, Event.stop x ∈ post → x.tag ≠ "relation")
    (h : parse env mode (pre ++ .stop e :: post) = .ok s) :
    s.rels.Perm (relationTexts env.ws pre) ∧ s.rels.Pairwise (· ≤ ·) := by
  have h' : Verif.Pgc.run env mode {} (pre ++ .stop e :: post) = .ok s := h
  rw [run_append] at h'
  cases hp : Verif.Pgc.run env mode {} pre with
  | error x => rw [hp] at h'; simp at h'
  | ok s1 =>
    rw [hp] at h'
    dsimp only at h'
    rw [run_cons] at h'
    have hst : step env mode s1 (.stop e) = .ok (endRelations s1) := by simp [step, he]
    rw [hst] at h'
    dsimp only at h'
    obtain ⟨k1, k2, k3⟩ := endRelations_rels s1
    obtain ⟨h1, -⟩ := run_rels env mode pre _ _ hp
    obtain ⟨h2, h3⟩ := run_rels env mode post _ _ h'
    obtain ⟨h4, h5⟩ := h3 hpost k2 k3
    refine ⟨?_, h4 ▸ h5⟩
    rw [h4]
    have hno : relationTexts env.ws post = [] := by
      unfold relationTexts
      rw [List.filterMap_eq_nil_iff]
      intro ev hev
      cases ev with
      | start x => rfl
      | stop x => simp [hpost x hev]
    rw [hno, List.append_nil] at h2
    exact h2.trans (k1.trans (by simpa using h1))

/-- C39.  If reading succeeds then each <graph_pair> element has all its attributes and its banks are declared before
it. -/
theorem references_resolved {env : Env γ} {mode : Load} {pre post : List Event} {e : Elem} {s : State γ}
    (h : parse env mode (pre ++ .start e :: post) = .ok s) (he : e.tag = "graph_pair") :
    ∃ sb tb si ti, e.attrib.get? "from_bank_id" = some sb ∧ e.attrib.get? "to_bank_id" = some tb ∧
      e.attrib.get? "from_graph_id" = some si ∧ e.attrib.get? "to_graph_id" = some ti ∧
      Declared pre (some sb) ∧ Declared pre (some tb) := by
  have h' : Verif.Pgc.run env mode {} (pre ++ .start e :: post) = .ok s := h
  rw [run_append] at h'
  cases hp : Verif.Pgc.run env mode {} pre with
  | error x => rw [hp] at h'; simp at h'
  | ok s1 =>
    rw [hp] at h'
    dsimp only at h'
    rw [run_cons] at h'
    cases hs : step env mode s1 (.start e) with
    | error x => rw [hs] at h'; simp at h'
    | ok s2 =>
      have hsp : startPair mode s1 e.attrib = .ok s2 := by rw [← hs]; simp [step, he]
      obtain ⟨pp, -, ⟨a1, a2, a3, a4⟩, a5, a6, -⟩ := startPair_from hsp
      have hb := (pairs_as_declared (env := env) (mode := mode) (evs := pre) hp).2
      exact ⟨_, _, _, _, a1, a2, a3, a4, (hb _).1 a5, (hb _).1 a6⟩

/-- C39.  A <graph_pair> element without one of the four attributes, or with a bank that is not declared before it, makes
reading fail with a DaesoError. -/
theorem dangling_reference {env : Env γ} {mode : Load} {pre post : List Event} {e : Elem} {s : State γ}
    (h : parse env mode pre = .ok s) (he : e.tag = "graph_pair")
    (hbad : e.attrib.get? "from_bank_id" = none ∨ e.attrib.get? "to_bank_id" = none ∨
      e.attrib.get? "from_graph_id" = none ∨ e.attrib.get? "to_graph_id" = none ∨
      (∃ b, e.attrib.get? "from_bank_id" = some b ∧ ¬ Declared pre (some b)) ∨
      (∃ b, e.attrib.get? "to_bank_id" = some b ∧ ¬ Declared pre (some b))) :
    parse env mode (pre ++ .start e :: post) = .error .daesoError := by
  have hb := (pairs_as_declared h).2
  have hnone : ∀ b, ¬ Declared pre (some b) → s.banks.get? (some b) = none := by
    intro b hd
    rw [← hb] at hd
    simpa using hd
  show Verif.Pgc.run env mode {} _ = _
  rw [run_seq (s1 := s) h, run_cons]
  have : step env mode s (.start e) = .error .daesoError := by
    have h1 : step env mode s (.start e) = startPair mode s e.attrib := by simp [step, he]
    rw [h1]
    unfold startPair
    split
    rotate_left
    · rfl
    rename_i sb tb ha1 ha2
    split
    rotate_left
    · rfl
    rename_i bs bt hb1 hb2
    split
    rotate_left
    · rfl
    rename_i si ti ha3 ha4
    exfalso
    rw [ha1, ha2, ha3, ha4] at hbad
    simp only [reduceCtorEq, Option.some.injEq, false_or] at hbad
    rcases hbad with ⟨b, rfl, hd⟩ | ⟨b, rfl, hd⟩
    · rw [hnone _ hd] at hb1; simp at hb1
    · rw [hnone _ hd] at hb2; simp at hb2
  rw [this]

/-! ### C47: loading graphs -/

/-- C47.  After sparse reading (of any event sequence that ends its graph pairs and declares no bank after that) no stub
is left: every graph pair has graphs read from the files of its banks, with the ids given for it. -/
theorem sparse_full {env : Env γ} {pre post : List Event} {e : Elem} {s : State γ} (he : e.tag = "aligned_graphs")
    (hpost : ∀ x, Event.stop x ∈ post → x.tag ≠ "file")
    (h : parse env .sparse (pre ++ .stop e :: post) = .ok s) : ∀ p ∈ s.pairs, Full env s p := by
  have h' : Verif.Pgc.run env .sparse {} (pre ++ .stop e :: post) = .ok s := h
  rw [run_append] at h'
  cases hp : Verif.Pgc.run env .sparse {} pre with
  | error x => rw [hp] at h'; simp at h'
  | ok s1 =>
    rw [hp] at h'
    dsimp only at h'
    rw [run_cons] at h'
    have hI := Inv.run (mode := .sparse) (by simp) pre (Inv.init env) hp
    cases hs : step env .sparse s1 (.stop e) with
    | error x => rw [hs] at h'; simp at h'
    | ok s2 =>
      rw [hs] at h'
      dsimp only at h'
      have hl : loadBanks env .sparse s1 = .ok s2 := by rw [← hs]; simp [step, he]
      obtain ⟨q1, q2, -⟩ := hI.loadBanks hl
      exact full_of (Inv.run (by simp) post q1 h') (AllLoaded.run post q1 q2 hpost h')

/-- C47.  Reading with all graphs loaded: every graph pair has graphs from the files of its banks, with the ids given
for it. -/
theorem all_full {env : Env γ} {evs : List Event} {s : State γ} (h : parse env .all evs = .ok s) :
    ∀ p ∈ s.pairs,
      (∃ bk gs g, s.banks.get? (some p.sourceBank) = some bk ∧ env.readAll bk.path bk.format = .ok gs ∧
        gs.get? p.sourceId = some g ∧ p.source = some g) ∧
      (∃ bk gs g, s.banks.get? (some p.targetBank) = some bk ∧ env.readAll bk.path bk.format = .ok gs ∧
        gs.get? p.targetId = some g ∧ p.target = some g) := by
  intro p hp
  have hI := InvAll.run evs (InvAll.init env) h
  obtain ⟨⟨b1, g1, a1, a2, a3, a4⟩, ⟨b2, g2, a5, a6, a7, a8⟩⟩ := hI.pairs p hp
  exact ⟨⟨b1, _, g1, a1, (hI.banks _ _ a1).2 a2, a3, a4⟩, ⟨b2, _, g2, a5, (hI.banks _ _ a5).2 a6, a7, a8⟩⟩

/-- C47.  Reading without loading: every graph pair has stubs. -/
theorem none_stubs {env : Env γ} {evs : List Event} {s : State γ} (h : parse env .none evs = .ok s) :
    (∀ p ∈ s.pairs, p.source = none ∧ p.target = none) ∧ ∀ k b, s.banks.get? k = some b → b.loaded = false := by
  have hI := Inv.run (mode := .none) (by simp) evs (Inv.init env) h
  have hF := Fresh.run evs (by intro k b hk; simp at hk) h
  refine ⟨?_, hF⟩
  intro p hp
  obtain ⟨k1, k2⟩ := hI.known p hp
  obtain ⟨b1, k1⟩ := Option.isSome_iff_exists.1 k1
  obtain ⟨b2, k2⟩ := Option.isSome_iff_exists.1 k2
  exact ⟨(((hI.banks _ _ k1).before (hF _ _ k1)).2.2.2 p hp).1 rfl, (((hI.banks _ _ k2).before (hF _ _ k2)).2.2.2 p hp).2 rfl⟩

/-- The graph pair after graphs of bank `k` were read. -/
structure LoadedFrom (k : Option String) (gs : AD String γ) (p q : PPair γ) : Prop where
  source : q.source = if some p.sourceBank = k then gs.get? p.sourceId else p.source
  target : q.target = if some p.targetBank = k then gs.get? p.targetId else p.target
  rest : q.sourceBank = p.sourceBank ∧ q.targetBank = p.targetBank ∧ q.sourceId = p.sourceId ∧ q.targetId = p.targetId ∧
    q.meta = p.meta ∧ q.align = p.align

/-- C47.  Loading a bank of a corpus read with stubs is all or nothing: when no graph is aligned with itself, either all
graphs of this bank that graph pairs use are replaced, in all of them, by graphs from the file (and each was found
there), or nothing changes; it is a DaesoError when the file is missing or lacks a graph. -/
theorem load_all_or_nothing {env : Env γ} {evs : List Event} {s : State γ} (h : parse env .none evs = .ok s)
    (hself : ∀ p ∈ s.pairs, ¬ (p.sourceBank = p.targetBank ∧ p.sourceId = p.targetId))
    {k : Option String} {bk : Bank γ} (hk : s.banks.get? k = some bk) :
    (∃ ids, (∀ i, i ∈ ids ↔ ∃ p ∈ s.pairs, some p.sourceBank = k ∧ p.sourceId = i ∨ some p.targetBank = k ∧ p.targetId = i) ∧
      match env.readSparse bk.path bk.format ids with
      | .error e => loadSparse env k bk s.pairs = (s.pairs, .error (if e = .osError then .daesoError else e))
      | .ok gs =>
        if ∀ i ∈ ids, (gs.get? i).isSome then
          ∃ ps b, loadSparse env k bk s.pairs = (ps, .ok b) ∧ b.loaded = true ∧ b.path = bk.path ∧ b.format = bk.format ∧
            List.Forall₂ (LoadedFrom k gs) s.pairs ps ∧
            ∀ p ∈ ps, (some p.sourceBank = k → p.source.isSome) ∧ (some p.targetBank = k → p.target.isSome)
        else loadSparse env k bk s.pairs = (s.pairs, .error .daesoError)) := by
  have hI := Inv.run (mode := .none) (by simp) evs (Inv.init env) h
  obtain ⟨hst, hF⟩ := none_stubs h
  have hB := hI.banks k bk hk
  have hl := hF k bk hk
  obtain ⟨c1, c2, c3, c4⟩ := hB.before hl
  refine ⟨bk.stubs.keys, ?_, ?_⟩
  · intro i
    rw [AD.mem_keys_iff]
    constructor
    · intro hi
      obtain ⟨cl, hcl⟩ := Option.isSome_iff_exists.1 hi
      obtain ⟨x, hx⟩ := List.exists_mem_of_ne_nil _ (c2 i cl hcl)
      have hC := c3 i
      rw [hcl, Option.getD_some] at hC
      cases hpx : s.pairs[x]? with
      | none => exact absurd hx (hC.2 x hpx)
      | some p => exact ⟨p, List.mem_iff_getElem?.2 ⟨x, hpx⟩, (hC.mem hpx).1 hx⟩
    · rintro ⟨p, hp, hu⟩
      have := hB.stub hl hp
      rw [← AD.mem_keys_iff]
      rcases hu with ⟨e1, rfl⟩ | ⟨e1, rfl⟩
      · exact this.1 e1
      · exact this.2 e1
  · cases hr : env.readSparse bk.path bk.format bk.stubs.keys with
    | error e =>
      simp only [loadSparse, hl, hr]
      cases e <;> rfl
    | ok gs =>
      dsimp only
      split
      · rename_i hall
        obtain ⟨ps, hps⟩ := replaceStubs_total (k := k) (gs := gs) bk.stubs s.pairs c1 (by
          intro y hy
          have hy' := AD.get?_of_mem c1 hy
          refine ⟨by simpa [hy'] using c3 y.1, c2 _ _ hy', hall _ (List.mem_map_of_mem hy)⟩) hself
          (fun p hp => ⟨fun e _ => (c4 p hp).1 e, fun e _ => (c4 p hp).2 e⟩)
        have hany : (bk.stubs.keys.any fun i => (gs.get? i).isNone) = false := by
          rw [List.any_eq_false]
          intro i hi
          have := hall i hi
          cases hg : gs.get? i <;> simp_all
        have hL : loadSparse env k bk s.pairs = (ps, .ok { bk with loaded := true, graphs := gs }) := by
          simp [loadSparse, hl, hr, hps, hany]
        obtain ⟨-, gs', r1, -, r3, -⟩ := loadSparse_ok hB hL
        rw [hr] at r1
        simp only [Except.ok.injEq] at r1
        subst r1
        have hupd : List.Forall₂ (LoadedFrom k gs) s.pairs ps := by
          rw [r3, List.forall₂_map_right_iff, List.forall₂_same]
          intro p hp
          refine ⟨?_, ?_, rfl, rfl, rfl, rfl, rfl, rfl⟩
          · unfold updAll
            by_cases hc : some p.sourceBank = k
            · simp [hc, (hB.stub hl hp).1 hc, (c4 p hp).1 hc]
            · simp [hc]
          · unfold updAll
            by_cases hc : some p.targetBank = k
            · simp [hc, (hB.stub hl hp).2 hc, (c4 p hp).2 hc]
            · simp [hc]
        refine ⟨ps, _, hL, rfl, rfl, rfl, hupd, ?_⟩
        intro q hq
        obtain ⟨p, hp, hpq⟩ := forall₂_left hupd hq
        obtain ⟨e1, e2, e3, e4, -, -⟩ := hpq.rest
        rw [e1, e2]
        constructor
        · intro hc
          rw [hpq.source, if_pos hc]
          exact hall _ ((hB.stub hl hp).1 hc)
        · intro hc
          rw [hpq.target, if_pos hc]
          exact hall _ ((hB.stub hl hp).2 hc)
      · rename_i hall
        have hany : (bk.stubs.keys.any fun i => (gs.get? i).isNone) = true := by
          push Not at hall
          obtain ⟨i, hi, hn⟩ := hall
          rw [List.any_eq_true]
          exact ⟨i, hi, by simpa using hn⟩
        simp [loadSparse, hl, hr, hany]

/-! ### Sample corpora and violations -/

/-- A file system with two files, a graph is its id. -/
def sampleEnv : Env String :=
  { ws := fun c => c = ' ' || c = '\n'
    resolve := fun x => x
    readAll := fun _ _ => .ok [("s", "graph s"), ("t", "graph t")]
    readSparse := fun x _ ids => if x = "/a".toList ∨ x = "/b".toList then
        .ok ([("s", "graph s"), ("t", "graph t")].filter fun y => y.1 ∈ ids) else .error .osError }

/-- Two graph pairs; their source banks are two objects for one file. -/
def sampleWorld : World :=
  { gp := fun p => ⟨if p = 0 then 10 else 12, 11, "s", "t",
      ⟨p, .mk "graph_meta_data" [] none none (if p = 0 then [.mk "note" [] (some "hi".toList) none []] else [])⟩,
      if p = 0 then (match GraphPair.run true Graph.empty [.add "1" "2" "equals"] with
        | .ok x => x.1
        | .error _ => Graph.empty) else Graph.empty⟩
    path := fun b => if b = 11 then "/b" else "/a"
    rels := fun _ => ["equals", "restates"]
    nrels := 1 }

/-- A corpus with both graph pairs. -/
def sampleCorpus : Corpus := ⟨[0, 1], 0, none⟩

example : Writable (fun p => if p = "/a" then some 1 else some 2) sampleEnv sampleWorld (fun _ => "graphml")
    (fun p => p.toList) sampleCorpus := by
  refine ⟨?_, ?_, ?_, ?_, ?_, ?_, ?_, by simp [sampleCorpus]⟩
  · intro a b _ _
    right
    constructor <;> dsimp only <;> split <;> rfl
  · intro p hp
    simp only [sampleCorpus, List.mem_cons, List.not_mem_nil, or_false] at hp
    rcases hp with rfl | rfl
    · refine ⟨[.add "1" "2" "equals"], [false], ?_⟩
      obtain ⟨g, h1, -⟩ := GraphPair.matching_refines (κ := String) (ρ := String) [.add "1" "2" "equals"]
      simp only [sampleWorld, h1, if_true]
      rfl
    · exact ⟨[], [], rfl⟩
  · intro p _
    simp [sampleWorld]
  · intro b _
    refine ⟨by simp, ?_, ?_⟩
    · by_cases h : b = 11 <;> simp only [sampleWorld, h, if_true, if_false] <;> decide +kernel
    · by_cases h : b = 11 <;> simp only [sampleWorld, h, if_true, if_false] <;> decide +kernel
  · show List.Pairwise (· ≤ ·) ["equals", "restates"]
    decide +kernel
  · show ∀ r ∈ ["equals", "restates"], _
    decide +kernel
  · intro p hp
    simp only [sampleCorpus, List.mem_cons, List.not_mem_nil, or_false] at hp
    rcases hp with rfl | rfl
    · intro _
      simp [sampleWorld, Elem.tag, Elem.children, ForeignList, Foreign, tags]
    · simp [sampleWorld, Elem.children]

/-- What is read of a file with these elements in <aligned_graphs>, for banks 1 and 2. -/
def sampleFile (files rels pairs : List Elem) : List Event := events (.mk "parallel_graph_corpus" [] none none
  [.mk "graphbanks" [] none none files, .mk "node_relations" [] none none rels, .mk "aligned_graphs" [] none none pairs])

/-- The element of a graph pair. -/
def samplePair (b1 b2 i j : String) (c : List Elem) : Elem :=
  .mk "graph_pair" [("from_bank_id", b1), ("to_bank_id", b2), ("from_graph_id", i), ("to_graph_id", j)] none none c

/-- Two banks. -/
def sampleFiles : List Elem := [.mk "file" [("id", "1"), ("format", "graphml")] (some "/a".toList) none [],
  .mk "file" [("id", "2"), ("format", "graphml")] (some "/b".toList) none []]

example : (parse sampleEnv .sparse (sampleFile sampleFiles [] [samplePair "1" "2" "s" "t" []])).map
    (fun s => s.pairs.map fun p => (p.source, p.target)) = .ok [(some "graph s", some "graph t")] := by decide +kernel

example : (parse sampleEnv .all (sampleFile sampleFiles [] [samplePair "1" "2" "s" "t" []])).map
    (fun s => s.pairs.map fun p => (p.source, p.target)) = .ok [(some "graph s", some "graph t")] := by decide +kernel

example : (parse sampleEnv .none (sampleFile sampleFiles [] [samplePair "1" "3" "s" "t" []])).map
    (fun s => s.pairs.length) = .error .daesoError := by decide +kernel

example : (parse sampleEnv .sparse (sampleFile sampleFiles [] [samplePair "1" "2" "s" "u" []])).map
    (fun s => s.pairs.length) = .error .daesoError := by decide +kernel

/-- Violation of C38.  Elements of the corpus format inside metadata are read as part of the corpus: a <node_pair> there
becomes an alignment. -/
theorem node_pair_in_metadata : (parse sampleEnv .none (sampleFile sampleFiles [] [samplePair "1" "2" "s" "t"
      [.mk "graph_meta_data" [] none none
        [.mk "node_pair" [("from_node_id", "x"), ("to_node_id", "y"), ("relation", "r")] none none []]]])).map
    (fun s => s.pairs.map fun p => GraphPair.getAlign p.align (some "x") (some "y")) =
      .ok [.ok (some (some "r"))] := by decide +kernel

example : ∃ s, parse sampleEnv .none (sampleFile [] [.mk "relation" [] (some "b".toList) none [],
    .mk "relation" [] (some " a ".toList) none []] []) = .ok s := ⟨_, rfl⟩

/-- Violation of C38.  An empty relation is written as an element without text, which the reader cannot read. -/
theorem empty_relation : (parse sampleEnv .none (sampleFile sampleFiles [reread (.mk "relation" [] (some []) none [])] [])).map
    (fun s => s.pairs.length) = .error .attributeError := by decide +kernel

/-- Violation of C47.  A corpus with a graph aligned with itself can be read without loading graphs but not with sparse
loading. -/
theorem self_aligned_unreadable :
    (parse sampleEnv .sparse (sampleFile sampleFiles [] [samplePair "1" "1" "s" "s" []])).map
      (fun s => s.pairs.length) = .error .assertionError ∧
    (parse sampleEnv .none (sampleFile sampleFiles [] [samplePair "1" "1" "s" "s" []])).map
      (fun s => s.pairs.length) = .ok 1 ∧
    (parse sampleEnv .all (sampleFile sampleFiles [] [samplePair "1" "1" "s" "s" []])).map
      (fun s => s.pairs.length) = .ok 1 := by decide +kernel

/-- Violation of C47.  In that case loading is not all or nothing: an earlier graph pair has got its graph. -/
theorem self_aligned_half_loaded :
    (parse sampleEnv .none (sampleFile sampleFiles [] [samplePair "1" "2" "s" "t" [], samplePair "1" "1" "s" "s" []])).map
      (fun s => (s.banks.get? (some "1")).map fun b =>
        ((loadSparse sampleEnv (some "1") b s.pairs).1.map (fun p => p.source),
          (loadSparse sampleEnv (some "1") b s.pairs).2.isOk)) =
      .ok (some ([some "graph s", none], false)) := by decide +kernel

end Verif.Props.Pgc
