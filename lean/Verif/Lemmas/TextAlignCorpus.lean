import Verif.Lemmas.TextAlign
import Verif.Props.HitaextDoc

/-! From the corpus to the elements and back. -/
set_option linter.unusedSectionVars false
namespace Verif.TextAlign
open Verif Verif.Etree Verif.IElemTree Verif.HitaextDoc Verif.Spec Verif.Props.IElemTree Verif.Props.HitaextDoc

variable {τ ω : Type}

theorem inject_same (d : Hitaext) (s s' : St × St) (h : inject d s = .ok s') :
    SameBut s'.1 s.1 ∧ SameBut s'.2 s.2 := by
  have key : ∀ (resolve : St → St → Link → Py (Nat × Nat)),
      Py.forIn d.links s (fun l s => match resolve s.1 s.2 l with
        | .ok p => .ok (join p s)
        | .error e => .error e) = .ok s' → SameBut s'.1 s.1 ∧ SameBut s'.2 s.2 := by
    intro resolve h
    refine forIn_partial (fun x => SameBut x.1 s.1 ∧ SameBut x.2 s.2) ⟨.refl _, .refl _⟩ ?_ h
    rintro l _ x x' ⟨h1, h2⟩ hx
    split at hx
    · injection hx with hx
      subst hx
      rename_i p _
      have g1 : SameBut (join p x).1 x.1 := ⟨rfl, rfl, rfl, rfl, rfl, rfl⟩
      have g2 : SameBut (join p x).2 x.2 := ⟨rfl, rfl, rfl, rfl, rfl, rfl⟩
      exact ⟨g1.trans h1, g2.trans h2⟩
    · simp at hx
  unfold inject at h
  split at h
  · exact key resolveN h
  · split at h
    · exact key resolveN h
    · split at h
      · exact key resolveId h
      · simp at h

theorem text_of (o : Opts) (t : IElemTree.Tree) (hd : Distinct t) (d : Doc) (h : Same d (update o t fresh))
    (e : IElemTree.Tree) (he : e ∈ elems t) : getElemText d e.addr = textOf o t e := by
  have h1 : getElemText d e.addr = getElemText (update o t fresh) e.addr := by
    unfold getElemText; rw [h.text, h.st.start, h.st.stop]
  rw [h1]
  unfold textOf
  split
  · rename_i hv; exact element_text o t fresh hd e hv
  · rename_i hv; exact ignored_text o t hd e he hv

theorem focus_eq (o : Opts) (t : IElemTree.Tree) (hd : Distinct t) (d : Doc) (h : Same d (update o t fresh))
    (S : IElemTree.Tree) (hS : S ∈ elems t) (tag : String) : focusElems d S tag = focusList o t S tag := by
  unfold focusElems focusList
  rw [findall_eq, List.filter_filter]
  refine List.filter_congr fun e he => ?_
  rw [h.st.ignored]
  have h1 := ignored_flags o t hd e (below_sub t S e hS he)
  by_cases h2 : (update o t fresh).st.ignored e.addr = true
  · have := h1.1 h2
    simp [h2, this.1, this.2]
  · have h3 : ¬ (e ∉ visible o t ∧ e.children ≠ []) := fun hc => h2 (h1.2 hc)
    have h4 : e ∈ visible o t ∨ e.children = [] := by tauto
    simp only [Bool.not_eq_true] at h2
    simp [h2, h4]

theorem focusList_mem {o : Opts} {t S : IElemTree.Tree} {tag : String} {e : IElemTree.Tree} (hS : S ∈ elems t)
    (he : e ∈ focusList o t S tag) : e ∈ elems t ∧ e.tag = tag := by
  unfold focusList at he
  rw [List.mem_filter] at he
  have := he.2
  simp only [decide_eq_true_eq] at this
  exact ⟨below_sub t S e hS he.1, this.1⟩

/-- The two documents as the aligner has them. -/
structure Docs (c : Config τ ω) (tF tT : IElemTree.Tree) (dF dT : Doc) : Prop where
  hF : Distinct tF
  hT : Distinct tT
  sF : Same dF (update (sourceOpts c) tF fresh)
  sT : Same dT (update (targetOpts c) tT fresh)

theorem Docs.root {c : Config τ ω} {tF tT : IElemTree.Tree} {dF dT : Doc} (h : Docs c tF tT dF dT) :
    dF.root = tF ∧ dT.root = tT := ⟨h.sF.root, h.sT.root⟩

theorem scores_doc {c : Config τ ω} {tF tT : IElemTree.Tree} {dF dT : Doc} (h : Docs c tF tT dF dT)
    {S T : IElemTree.Tree} (hS : S ∈ elems tF) (hT : T ∈ elems tT) (l : List Scored)
    (hl : scores c dF dT (focusElems dF S c.focusS) (focusElems dT T c.focusT) = .ok l) (r : ℝ) (a b : Nat) :
    (r, a, b) ∈ l ↔ ∃ e e', ScopeScore c tF tT S T e e' r ∧ a = e.addr ∧ b = e'.addr := by
  rw [scores_mem c dF dT _ _ l hl, focus_eq _ tF h.hF dF h.sF S hS, focus_eq _ tT h.hT dT h.sT T hT]
  have e1 : (focusList (sourceOpts c) tF S c.focusS).map (fun e => c.term (getElemText dF e.addr)) =
      ((focusList (sourceOpts c) tF S c.focusS).map (textOf (sourceOpts c) tF)).map c.term := by
    rw [List.map_map]
    refine List.map_congr_left fun e he => ?_
    rw [text_of _ tF h.hF dF h.sF e (focusList_mem hS he).1]; rfl
  have e2 : (focusList (targetOpts c) tT T c.focusT).map (fun e => c.term (getElemText dT e.addr)) =
      ((focusList (targetOpts c) tT T c.focusT).map (textOf (targetOpts c) tT)).map c.term := by
    rw [List.map_map]
    refine List.map_congr_left fun e he => ?_
    rw [text_of _ tT h.hT dT h.sT e (focusList_mem hT he).1]; rfl
  rw [e1, e2, ← List.map_append]
  unfold ScopeScore Similarity
  constructor
  · rintro ⟨ws, i, j, e, e', w, w', g1, g2, g3, g4, g5, g6, g7, g8⟩
    refine ⟨e, e', ⟨i, j, g2, g3, textOf (sourceOpts c) tF e, textOf (targetOpts c) tT e', ws, w, w', ?_, ?_, g1, g4, ?_, ?_⟩,
      g7, g8⟩
    · rw [List.getElem?_map, g2]; rfl
    · rw [List.getElem?_map, g3]; rfl
    · simpa using g5
    · rw [text_of _ tF h.hF dF h.sF e (focusList_mem hS (List.mem_of_getElem? g2)).1,
        text_of _ tT h.hT dT h.sT e' (focusList_mem hT (List.mem_of_getElem? g3)).1] at g6
      exact g6
  · rintro ⟨e, e', ⟨i, j, g2, g3, x, y, ws, w, w', f1, f2, g1, g4, g5, g6⟩, g7, g8⟩
    rw [List.getElem?_map, g2] at f1
    rw [List.getElem?_map, g3] at f2
    simp only [Option.map_some, Option.some.injEq] at f1 f2
    subst f1 f2
    refine ⟨ws, i, j, e, e', w, w', g1, g2, g3, g4, by simpa using g5, ?_, g7, g8⟩
    rw [text_of _ tF h.hF dF h.sF e (focusList_mem hS (List.mem_of_getElem? g2)).1,
      text_of _ tT h.hT dT h.sT e' (focusList_mem hT (List.mem_of_getElem? g3)).1]
    exact g6

/-- Functions that always return. -/
structure Total (c : Config τ ω) : Prop where
  weight : ∀ ts, ∃ ws, c.weight ts = .ok ws
  sim : ∀ x y w w', ∃ r, c.sim x y w w' = .ok r
  filter : ∀ n n' l, ∃ l', c.filter n n' l = .ok l'

theorem scoreSim_total {c : Config τ ω} (h : Total c) (A B : List (IElemTree.Tree × τ × ω)) :
    ∃ l, scoreSim c.sim A B = .ok l := by
  induction A with
  | nil => exact ⟨[], rfl⟩
  | cons s A ih =>
    obtain ⟨rest, hr⟩ := ih
    have : ∃ row, B.mapM (pairScore c.sim s) = .ok row := by
      clear hr
      induction B with
      | nil => exact ⟨[], rfl⟩
      | cons t B ihB =>
        obtain ⟨row, hrow⟩ := ihB
        obtain ⟨r, hsim⟩ := h.sim s.2.1 t.2.1 s.2.2 t.2.2
        rw [List.mapM_cons]
        simp only [pairScore, hsim, hrow, bind, Except.bind, pure, Except.pure]
        exact ⟨_, rfl⟩
    obtain ⟨row, hrow⟩ := this
    unfold scoreSim
    rw [hrow, hr]
    exact ⟨_, rfl⟩

theorem scores_total {c : Config τ ω} (h : Total c) (dF dT : Doc) (ss ts : List IElemTree.Tree) :
    ∃ l, scores c dF dT ss ts = .ok l := by
  unfold scores
  dsimp only
  obtain ⟨ws, hws⟩ := h.weight (ss.map (fun e => c.term (getElemText dF e.addr)) ++
    ts.map (fun e => c.term (getElemText dT e.addr)))
  rw [hws]
  exact scoreSim_total h _ _

theorem alignWithin_total {c : Config τ ω} (h : Total c) (dF dT : Doc) (S T : IElemTree.Tree) :
    ∃ d', alignWithin c dF dT S T = .ok d' := by
  unfold alignWithin
  dsimp only
  split
  · exact ⟨_, rfl⟩
  · obtain ⟨l, hl⟩ := scores_total h dF dT (focusElems dF S c.focusS) (focusElems dT T c.focusT)
    rw [hl]
    dsimp only
    obtain ⟨l', hl'⟩ := h.filter (fun a => (dF.st.n a).getD 0) (fun a => (dT.st.n a).getD 0) l
    rw [hl']
    exact ⟨_, rfl⟩

theorem Yields.target {c : Config τ ω} (hf : Filters c) {tF tT : IElemTree.Tree} {dF dT : Doc}
    (h : Docs c tF tT dF dT) {S T : IElemTree.Tree} (hT : T ∈ elems tT) {a b : Nat} (hy : Yields c dF dT S T a b) :
    ∃ e ∈ elems tT, e.addr = b := by
  obtain ⟨-, e, he, hb⟩ := hy.focus hf
  rw [focus_eq _ tT h.hT dT h.sT T hT] at he
  exact ⟨e, (focusList_mem hT he).1, hb⟩

/-- Alignments of elements go to elements of the other document. -/
def Inside (tF tT : IElemTree.Tree) (A : Nat → List Nat) : Prop :=
  ∀ e ∈ elems tF, ∀ b ∈ A e.addr, ∃ e' ∈ elems tT, e'.addr = b

theorem elemAt_mem {t : IElemTree.Tree} {b : Nat} {e : IElemTree.Tree} (h : elemAt t b = .ok e) :
    e ∈ elems t ∧ e.addr = b := by
  unfold elemAt at h
  split at h
  · rename_i x hx
    injection h with h
    subst h
    rw [iter_eq] at hx
    exact ⟨List.mem_of_find?_eq_some hx, by simpa using List.find?_some hx⟩
  · simp at h

theorem alignScopes_total {c : Config τ ω} (ht : Total c) (hf : Filters c) {tF tT : IElemTree.Tree} {dF dT : Doc}
    (h : Docs c tF tT dF dT) (hin : Inside tF tT dF.st.aligns) (sS sT : List String) :
    ∃ dF', alignScopes c sS sT dF dT = .ok dF' ∧ Same dF' dF ∧ Inside tF tT dF'.st.aligns := by
  unfold alignScopes
  rw [h.root.1]
  refine Py.forIn_inv (fun _ d => Same d dF ∧ Inside tF tT d.st.aligns) ⟨.refl _, hin⟩ ?_
  rintro pre S suf d hl ⟨hs, hd⟩
  have hS : S ∈ elems tF := by rw [← iter_eq, hl]; simp
  by_cases hst : S.tag ∈ sS
  · rw [if_neg (by simpa using hst)]
    unfold alignScope
    obtain ⟨d', hd', h1, h2⟩ := Py.forIn_inv (l := d.st.aligns S.addr) (s := d)
      (f := fun b dF => match elemAt dT.root b with
        | .error e => .error e
        | .ok T => if T.tag ∉ sT then .ok dF else alignWithin c dF dT S T)
      (fun _ d => Same d dF ∧ Inside tF tT d.st.aligns) ⟨hs, hd⟩ (by
        rintro pre b suf d1 hl1 ⟨hs1, hd1⟩
        obtain ⟨T, hT, hTb⟩ := hd S hS b (by rw [hl1]; simp)
        have he : elemAt dT.root b = .ok T := by rw [h.root.2, ← hTb]; exact elemAt_of tT h.hT T hT
        rw [he]
        dsimp only
        by_cases htt : T.tag ∈ sT
        · rw [if_neg (by simpa using htt)]
          obtain ⟨d2, hd2⟩ := alignWithin_total ht d1 dT S T
          obtain ⟨g1, g2, -⟩ := alignWithin_spec c d1 dT d2 S T hd2
          refine ⟨d2, hd2, g1.trans hs1, ?_⟩
          intro e he' b' hb'
          obtain ⟨new, n1, -, n3⟩ := g2 e.addr
          rw [n1] at hb'
          rcases List.mem_append.1 hb' with hb' | hb'
          · exact hd1 e he' b' hb'
          · exact ((n3 b' hb').2.same hs1).target hf h hT
        · rw [if_pos htt]
          exact ⟨d1, rfl, hs1, hd1⟩)
    exact ⟨d', hd', h1, h2⟩
  · rw [if_pos hst]
    exact ⟨d, rfl, hs, hd⟩

/-- The link between two elements. -/
def linkOf (F T : St) (tT e : IElemTree.Tree) (b : Nat) : ByN :=
  ⟨e.tag, (F.n e.addr).getD 0, (((elems tT).find? fun x => x.addr = b).map Tree.tag).getD "", (T.n b).getD 0⟩

theorem find_addr {t : IElemTree.Tree} (hd : Distinct t) {e : IElemTree.Tree} (he : e ∈ elems t) :
    ((elems t).find? fun x => x.addr = e.addr) = some e := by
  have := elemAt_of t hd e he
  unfold elemAt at this
  rw [iter_eq] at this
  split at this
  · rename_i x hx; injection this with this; rw [hx, this]
  · simp at this

/-- Links of that kind designate the elements, and are the only ones. -/
theorem linkOf_iff {c : Config τ ω} {tF tT : IElemTree.Tree} {dF dT : Doc} (h : Docs c tF tT dF dT)
    {e e' : IElemTree.Tree} (he : e ∈ elems tF) (he' : e' ∈ elems tT) (l : ByN) :
    (l.source tF = some e.addr ∧ l.target tT = some e'.addr) ↔ l = linkOf dF.st dT.st tT e e'.addr := by
  obtain ⟨n, n1, n2⟩ := nth_self tF (sourceOpts c) fresh h.hF e he
  obtain ⟨n', n1', n2'⟩ := nth_self tT (targetOpts c) fresh h.hT e' he'
  rw [← h.sF.st.n] at n1
  rw [← h.sT.st.n] at n1'
  have hlink : linkOf dF.st dT.st tT e e'.addr = ⟨e.tag, n, e'.tag, n'⟩ := by
    unfold linkOf
    rw [n1, n1', find_addr h.hT he']
    rfl
  rw [hlink]
  constructor
  · rintro ⟨h1, h2⟩
    obtain ⟨x, x1, x2⟩ := Option.map_eq_some_iff.1 h1
    obtain ⟨y, y1, y2⟩ := Option.map_eq_some_iff.1 h2
    obtain ⟨xm, xt, xn, xp, -⟩ := nth_ok (sourceOpts c) fresh h.hF x1
    obtain ⟨ym, yt, yn, yp, -⟩ := nth_ok (targetOpts c) fresh h.hT y1
    have ex : x = e := List.inj_on_of_nodup_map h.hF xm he x2
    have ey : y = e' := List.inj_on_of_nodup_map h.hT ym he' y2
    subst ex ey
    rw [← h.sF.st.n, n1] at xn
    rw [← h.sT.st.n, n1'] at yn
    cases l with
    | mk ft fn tt tn =>
      simp only [Option.some.injEq] at xt xn xp yt yn yp
      simp only [ByN.mk.injEq]
      exact ⟨xt.symm, by omega, yt.symm, by omega⟩
  · rintro rfl
    unfold ByN.source ByN.target
    exact ⟨by simp [n2], by simp [n2']⟩

/-- Extraction by numbers. -/
theorem extract_links {c : Config τ ω} {tF tT : IElemTree.Tree} {dF dT : Doc} (h : Docs c tF tT dF dT)
    (hin : Inside tF tT dF.st.aligns) (d : Hitaext) (hm : d.method = none ∨ d.method = some "n") :
    extract tF tT dF.st dT.st d = .ok ⟨((elems tF).flatMap fun e => (dF.st.aligns e.addr).map
      (linkOf dF.st dT.st tT e)).map ByN.link, d.method⟩ := by
  have key : extractN tF tT dF.st dT.st d = .ok ⟨((elems tF).flatMap fun e => (dF.st.aligns e.addr).map
      (linkOf dF.st dT.st tT e)).map ByN.link, d.method⟩ := by
    unfold extractN
    have hl : ∀ e ∈ iter tF, ∀ d, extractElemN tT dF.st dT.st e d = .ok
        { d with links := d.links ++ (dF.st.aligns e.addr).map (fun b => (linkOf dF.st dT.st tT e b).link) } := by
      intro e he d
      rw [iter_eq] at he
      unfold extractElemN
      refine extract_loop (fun b => (linkOf dF.st dT.st tT e b).link) _ _ d ?_
      intro b hb d
      obtain ⟨e', he', rfl⟩ := hin e he b hb
      obtain ⟨n, n1, n2⟩ := nth_self tF (sourceOpts c) fresh h.hF e he
      obtain ⟨n', n1', n2'⟩ := nth_self tT (targetOpts c) fresh h.hT e' he'
      rw [← h.sF.st.n] at n1
      rw [← h.sT.st.n] at n1'
      rw [elemAt_of tT h.hT e' he']
      simp only [numberOf, n1, n1', bind, Except.bind]
      unfold linkOf addN ByN.link
      rw [n1, n1', find_addr h.hT he']
      rfl
    rw [extract_outer _ _ _ _ hl, iter_eq]
    simp only [clear, List.nil_append, List.map_flatMap, List.map_map]
    rfl
  unfold extract
  rcases hm with hm | hm
  · rw [hm]; dsimp only; rw [key, hm]
  · rw [hm]; dsimp only; rw [if_pos rfl, key, hm]

theorem filter_flat {ι : Type} (es : List IElemTree.Tree) (hn : (es.map Tree.addr).Nodup) (g : IElemTree.Tree → List ι)
    (src : ι → Option Nat) (hg : ∀ e ∈ es, ∀ l ∈ g e, src l = some e.addr) (e : IElemTree.Tree) (he : e ∈ es) :
    (es.flatMap g).filter (fun l => src l = some e.addr) = g e := by
  induction es with
  | nil => simp at he
  | cons x es ih =>
    rw [List.map_cons, List.nodup_cons] at hn
    rw [List.flatMap_cons, List.filter_append]
    rcases List.mem_cons.1 he with rfl | he
    · have h1 : (g e).filter (fun l => src l = some e.addr) = g e := by
        rw [List.filter_eq_self]
        intro l hl
        simpa using hg e (by simp) l hl
      have h2 : (es.flatMap g).filter (fun l => src l = some e.addr) = [] := by
        rw [List.filter_eq_nil_iff]
        intro l hl hc
        obtain ⟨y, hy, hl⟩ := List.mem_flatMap.1 hl
        have h3 := hg y (by simp [hy]) l hl
        have h4 : src l = some e.addr := by simpa using hc
        rw [h3] at h4
        injection h4 with h4
        exact hn.1 (List.mem_map.2 ⟨y, hy, h4⟩)
      rw [h1, h2, List.append_nil]
    · have h1 : (g x).filter (fun l => src l = some e.addr) = [] := by
        rw [List.filter_eq_nil_iff]
        intro l hl hc
        have h3 := hg x (by simp) l hl
        have h4 : src l = some e.addr := by simpa using hc
        rw [h3] at h4
        injection h4 with h4
        exact hn.1 (List.mem_map.2 ⟨e, he, h4.symm⟩)
      rw [h1, List.nil_append]
      exact ih hn.2 (fun y hy => hg y (by simp [hy])) he

theorem map_filterMap_id {ι β : Type} (L : List ι) (tgt : ι → Option β) (mk : β → ι)
    (h : ∀ l ∈ L, ∃ b, tgt l = some b ∧ mk b = l) : (L.filterMap tgt).map mk = L := by
  induction L with
  | nil => rfl
  | cons x L ih =>
    obtain ⟨b, h1, h2⟩ := h x (by simp)
    rw [List.filterMap_cons_some h1, List.map_cons, h2, ih fun l hl => h l (by simp [hl])]

theorem flat_nodup {ι : Type} (es : List IElemTree.Tree) (hn : (es.map Tree.addr).Nodup) (g : IElemTree.Tree → List ι)
    (src : ι → Option Nat) (hg : ∀ e ∈ es, ∀ l ∈ g e, src l = some e.addr) (hgn : ∀ e ∈ es, (g e).Nodup) :
    (es.flatMap g).Nodup := by
  induction es with
  | nil => simp
  | cons x es ih =>
    rw [List.map_cons, List.nodup_cons] at hn
    rw [List.flatMap_cons, List.nodup_append]
    refine ⟨hgn x (by simp), ih hn.2 (fun y hy => hg y (by simp [hy])) (fun y hy => hgn y (by simp [hy])), ?_⟩
    rintro l hl _ hl' rfl
    obtain ⟨y, hy, hl'⟩ := List.mem_flatMap.1 hl'
    have h1 := hg x (by simp) l hl
    rw [hg y (by simp [hy]) l hl'] at h1
    injection h1 with h1
    exact hn.1 (List.mem_map.2 ⟨y, hy, h1⟩)

theorem linkOf_same {F F' T : St} (h : SameBut F F') (tT : IElemTree.Tree) : linkOf F T tT = linkOf F' T tT := by
  funext e b; unfold linkOf; rw [h.n]

/-- Aligning and extracting, from documents whose alignments are those of a list of links. -/
theorem corpus_core {c : Config τ ω} (ht : Total c) (keep : ℝ → Bool)
    (hk : ∀ n n' l, c.filter n n' l = .ok (l.filter fun x => keep x.1)) {tF tT : IElemTree.Tree} {dF dT : Doc}
    (h : Docs c tF tT dF dT) (kept : List ByN) (hv : ∀ l ∈ kept, (l.source tF).isSome ∧ (l.target tT).isSome)
    (hA : ∀ e ∈ elems tF, dF.st.aligns e.addr =
      (kept.filter fun l => l.source tF = some e.addr).filterMap (ByN.target tT))
    (sS sT : List String) (hfs : c.focusS ∉ sS) (d : Hitaext) (hm : d.method = none ∨ d.method = some "n") :
    ∃ (dF' : Doc) (out new : List ByN), alignScopes c sS sT dF dT = .ok dF' ∧
      extract tF tT dF'.st dT.st d = .ok ⟨List.map ByN.link out, d.method⟩ ∧
      inOrder tF (ByN.source tF) out = out ∧
      (∀ e ∈ elems tF, (out.filter fun l => l.source tF = some e.addr) =
        (kept.filter fun l => l.source tF = some e.addr) ++ new.filter fun l => l.source tF = some e.addr) ∧
      new.Nodup ∧
      ∀ l, l ∈ new ↔ ∃ e ∈ elems tF, ∃ e' ∈ elems tT, l.source tF = some e.addr ∧ l.target tT = some e'.addr ∧
        (∀ k ∈ kept, k.source tF = some e.addr → k.target tT ≠ some e'.addr) ∧
        ∃ S ∈ elems tF, ∃ T ∈ elems tT, S.tag ∈ sS ∧ T.tag ∈ sT ∧
          (∃ k ∈ kept, k.source tF = some S.addr ∧ k.target tT = some T.addr) ∧
          ∃ r, ScopeScore c tF tT S T e e' r ∧ keep r = true := by
  have hf : Filters c := by
    intro n n' l l' hl x hx
    rw [hk] at hl
    injection hl with hl
    subst hl
    exact List.mem_of_mem_filter hx
  have hal : ∀ e ∈ elems tF, ∀ b, b ∈ dF.st.aligns e.addr ↔
      ∃ k ∈ kept, k.source tF = some e.addr ∧ k.target tT = some b := by
    intro e he b
    rw [hA e he, List.mem_filterMap]
    constructor
    · rintro ⟨k, hk, hb⟩
      rw [List.mem_filter] at hk
      exact ⟨k, hk.1, by simpa using hk.2, hb⟩
    · rintro ⟨k, hk, h1, h2⟩
      exact ⟨k, List.mem_filter.2 ⟨hk, by simpa using h1⟩, h2⟩
  have htg : ∀ k ∈ kept, ∀ b, k.target tT = some b → ∃ e' ∈ elems tT, e'.addr = b := by
    intro k _ b hb
    obtain ⟨x, h1, h2⟩ := Option.map_eq_some_iff.1 hb
    exact ⟨x, (nth_ok (targetOpts c) fresh h.hT h1).1, h2⟩
  have hin : Inside tF tT dF.st.aligns := by
    intro e he b hb
    obtain ⟨k, hk, -, h2⟩ := (hal e he b).1 hb
    exact htg k hk b h2
  obtain ⟨dF', h1, h2, h3⟩ := alignScopes_total ht hf h hin sS sT
  obtain ⟨-, h4, h5⟩ := alignScopes_exact c hf sS sT dF dT dF' (by rw [h.root.1]; exact h.hF) hfs h1
  rw [h.root.1, iter_eq] at h4 h5
  have h' : Docs c tF tT dF' dT := ⟨h.hF, h.hT, h2.trans h.sF, h.sT⟩
  have hex := extract_links h' h3 d hm
  rw [linkOf_same h2.st] at hex
  choose newOf n1 n2 n3 using h4
  have hg : ∀ (A : Nat → List Nat), Inside tF tT A → ∀ e ∈ elems tF,
      ∀ l ∈ (A e.addr).map (linkOf dF.st dT.st tT e), l.source tF = some e.addr := by
    intro A hA e he l hl
    obtain ⟨b, hb, rfl⟩ := List.mem_map.1 hl
    obtain ⟨e', he', rfl⟩ := hA e he b hb
    exact ((linkOf_iff h he he' _).2 rfl).1
  have hnin : Inside tF tT newOf := fun e he b hb => h3 e he b (by rw [n1]; simp [hb])
  refine ⟨dF', _, (elems tF).flatMap fun e => (newOf e.addr).map (linkOf dF.st dT.st tT e), h1, hex, ?_, ?_, ?_, ?_⟩
  · unfold inOrder
    refine List.flatMap_congr fun e he => ?_
    exact filter_flat (elems tF) h.hF _ (ByN.source tF) (hg _ h3) e he
  · intro e he
    rw [filter_flat (elems tF) h.hF _ (ByN.source tF) (hg _ h3) e he,
      filter_flat (elems tF) h.hF _ (ByN.source tF) (hg _ hnin) e he, n1, List.map_append, hA e he,
      map_filterMap_id]
    intro l hl
    rw [List.mem_filter] at hl
    obtain ⟨b, hb⟩ := Option.isSome_iff_exists.1 (hv l hl.1).2
    obtain ⟨e', he', rfl⟩ := htg l hl.1 b hb
    exact ⟨_, hb, ((linkOf_iff h he he' l).1 ⟨by simpa using hl.2, hb⟩).symm⟩
  · refine flat_nodup (elems tF) h.hF _ (ByN.source tF) (hg _ hnin) fun e he => ?_
    refine List.Nodup.map_on ?_ (n2 e.addr)
    intro b hb b' hb' heq
    obtain ⟨x, hx, rfl⟩ := hnin e he b hb
    obtain ⟨x', hx', rfl⟩ := hnin e he b' hb'
    have q1 := ((linkOf_iff h he hx _).2 rfl).2
    have q2 := ((linkOf_iff h he hx' _).2 heq).2
    rw [q1] at q2
    exact Option.some.inj q2
  · intro l
    rw [List.mem_flatMap]
    constructor
    · rintro ⟨e, he, hl⟩
      obtain ⟨b, hb, rfl⟩ := List.mem_map.1 hl
      obtain ⟨e', he', rfl⟩ := hnin e he b hb
      obtain ⟨q1, q2⟩ := (linkOf_iff h he he' _).2 rfl
      obtain ⟨m1, S, hS, hst, x, hx, T, hTx, htt, hy⟩ := n3 e.addr e'.addr hb
      obtain ⟨hTm, rfl⟩ := elemAt_mem hTx
      rw [h.root.2] at hTm
      refine ⟨e, he, e', he', q1, q2, ?_, S, hS, T, hTm, hst, htt, (hal S hS _).1 hx, ?_⟩
      · intro k hk1 hk2 hk3
        exact m1 ((hal e he _).2 ⟨k, hk1, hk2, hk3⟩)
      · obtain ⟨-, -, m, m', r, y1, y2, y3⟩ := hy
        rw [hk] at y2
        injection y2 with y2
        subst y2
        rw [List.mem_filter] at y3
        obtain ⟨z, z', z1, z2, z3⟩ := (scores_doc h hS hTm m y1 r _ _).1 y3.1
        obtain ⟨i, j, i1, i2, -⟩ := id z1
        have w1 : z = e := List.inj_on_of_nodup_map h.hF (focusList_mem hS (List.mem_of_getElem? i1)).1 he z2.symm
        have w2 : z' = e' := List.inj_on_of_nodup_map h.hT (focusList_mem hTm (List.mem_of_getElem? i2)).1 he' z3.symm
        subst w1 w2
        exact ⟨r, z1, y3.2⟩
    · rintro ⟨e, he, e', he', q1, q2, hno, S, hS, T, hT, hst, htt, hk1, r, hr, hkr⟩
      refine ⟨e, he, List.mem_map.2 ⟨e'.addr, ?_, ((linkOf_iff h he he' l).1 ⟨q1, q2⟩).symm⟩⟩
      have hb : e'.addr ∈ dF'.st.aligns e.addr := by
        refine h5 S hS hst _ _ ⟨T.addr, (hal S hS _).2 hk1, T, ?_, htt, ?_⟩
        · rw [h.root.2]; exact elemAt_of tT h.hT T hT
        · obtain ⟨i, j, i1, i2, -⟩ := id hr
          obtain ⟨m, y1⟩ := scores_total ht dF dT (focusElems dF S c.focusS) (focusElems dT T c.focusT)
          refine ⟨?_, ?_, m, _, r, y1, hk _ _ _, List.mem_filter.2 ⟨?_, hkr⟩⟩
          · rw [focus_eq _ tF h.hF dF h.sF S hS]; exact List.ne_nil_of_mem (List.mem_of_getElem? i1)
          · rw [focus_eq _ tT h.hT dT h.sT T hT]; exact List.ne_nil_of_mem (List.mem_of_getElem? i2)
          · exact (scores_doc h hS hT m y1 r _ _).2 ⟨e, e', hr, rfl, rfl⟩
      rw [n1] at hb
      rcases List.mem_append.1 hb with hb | hb
      · obtain ⟨k, k1, k2, k3⟩ := (hal e he _).1 hb
        exact absurd k3 (hno k k1 k2)
      · exact hb

end Verif.TextAlign
