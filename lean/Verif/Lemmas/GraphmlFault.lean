import Verif.Lemmas.GraphmlFile

/-! What the GraphML parser does with a faulty file. -/
set_option linter.unusedSectionVars false
namespace Verif.Graphml
open Verif Verif.Spec.GraphmlFile

/-- The first element without a property. -/
theorem first_bad {α : Type} (P : α → Prop) (l : List α) :
    (∀ x ∈ l, P x) ∨ ∃ pre x post, l = pre ++ x :: post ∧ (∀ y ∈ pre, P y) ∧ ¬ P x := by
  induction l with
  | nil => left; simp
  | cons a l ih =>
    by_cases ha : P a
    · rcases ih with ih | ⟨pre, x, post, rfl, h1, h2⟩
      · left
        intro x hx
        rcases List.mem_cons.mp hx with rfl | hx
        · exact ha
        · exact ih x hx
      · right
        refine ⟨a :: pre, x, post, rfl, ?_, h2⟩
        intro y hy
        rcases List.mem_cons.mp hy with rfl | hy
        · exact ha
        · exact h1 y hy
    · right
      exact ⟨[], a, l, rfl, by simp, ha⟩

variable {decls : List Decl} {i : String} {B : AD String (Option Gr)} {g : Gr} {c : List String} {cm : Option Comp}
  {nd : Option (Option String)} {s : St} {ws : Char → Bool} {sp : Bool}

/-- A sequence stops at the element that fails. -/
theorem stops {α : Type} (w : Text) (docOf : α → Doc) (pre : List α) (x : α) (post : List α) {s1 s2 : St} {e : Err}
    (h1 : runAll ws sp ((pre.map docOf).flatMap fun d => [.text w, d]) s = .ok s1)
    (h2 : run ws sp (.text w) s1 = .ok s2) (h3 : run ws sp (docOf x) s2 = .error e) :
    runAll ws sp (((pre ++ x :: post).map docOf).flatMap fun d => [.text w, d]) s = .error e := by
  rw [List.map_append, List.flatMap_append, runAll_append, h1]
  dsimp only
  rw [List.map_cons, List.flatMap_cons]
  simp only [List.cons_append, List.nil_append]
  rw [runAll, h2]
  dsimp only
  rw [runAll, h3]

theorem keyName_none {s : St} (h : Rep decls s) {f k : String} (hf : f ∈ ["graph", "node", "edge", "all"])
    (hk : s.dataKey = some k) (hn : attrName decls f k = none) {c : List String} (hc : s.ctx = "data" :: f :: c) :
    lookupName s = .error .daesoError := by
  unfold lookupName
  rw [hc]
  simp only [List.getElem?_cons_succ, List.getElem?_cons_zero]
  rw [keyName_rep h hf hk, keyName_rep h (by simp) hk]
  rw [attrName_eq] at hn
  simp only [Option.or_eq_none_iff] at hn
  rw [hn.1, hn.2]

/-- A <data> element with an undeclared key. -/
theorem At.dataBad (h : At decls i B g c cm nd s) {f : String} {r : List String} (hc : c = f :: r)
    (hf : f ∈ ["graph", "node", "edge", "all"]) (d : Data) (hn : attrName decls f d.key = none) :
    run ws sp d.doc s = .error .daesoError := by
  unfold Data.doc
  rw [run]
  have h1 : startElement ws sp "data" [("key", d.key)] s =
      .ok { s with ctx := "data" :: s.ctx, buf := [], dataKey := some d.key } := by
    unfold startElement
    dsimp only
    rw [if_neg (by decide), if_neg (by decide), if_neg (by decide)]
    have : Graphml.wanted { s with ctx := "data" :: s.ctx, buf := [] } = .ok true := h.wanted
    rw [this]
    rfl
  rw [h1]
  dsimp only
  have hw : Graphml.wanted { s with ctx := "data" :: s.ctx, buf := [], dataKey := some d.key } = .ok true := h.wanted
  rw [texts hw]
  dsimp only
  have h2 : At decls i B g ("data" :: c) cm nd
      { s with ctx := "data" :: s.ctx, buf := [] ++ d.pieces.flatten, dataKey := some d.key } :=
    ⟨h.ready, h.rep, h.nodef, h.new, by rw [← h.ctx], h.graph, h.bank, h.comp, h.node⟩
  unfold endElement
  rw [if_neg (by decide), h2.wanted]
  dsimp only
  rw [if_neg (by decide), if_pos rfl]
  unfold endData
  rw [keyName_none h2.rep hf rfl hn (by rw [h2.ctx, hc])]

/-- The content fails, so the element fails. -/
theorem elem_fails {tag : String} {attrs : AD String String} {content tail : List Doc} {s1 : St} {e : Err}
    (h1 : startElement ws sp tag attrs s = .ok s1) (h2 : runAll ws sp content s1 = .error e) :
    run ws sp (.elem tag attrs (content ++ tail)) s = .error e := by
  rw [run, h1]
  dsimp only
  rw [runAll_append, h2]

theorem At.endNodeBad {n : String} {P : AD (Option String) (AD String Val)} {d : AD String Val} (hP : some n ∉ P.keys)
    (h : At decls i B { g with nodes := P ++ [(some n, d)] } ("node" :: c) (some (.node (some n))) nd s)
    (hb : ((d.get? "label").getD .none).truthy = false ∨ ((d.get? "tokens").getD .none).truthy = false) :
    endElement ws "node" s = .error .daesoError := by
  unfold endElement
  rw [if_neg (by decide), h.wanted]
  dsimp only
  rw [if_pos (by decide)]
  unfold Graphml.endNode
  rw [h.getNode hP, h.getNode hP]
  dsimp only
  by_cases hl : ((d.get? "label").getD .none).truthy = false
  · rw [if_pos hl]
  · rw [if_neg hl, if_pos (hb.resolve_left hl)]

/-- A node that lacks something. -/
theorem At.nodeBad (h : At decls i B g ("graph" :: c) cm nd s) (w : Text) (n : Node) (hn : some n.id ∉ g.nodes.keys)
    (hb : ¬ ((∀ d ∈ n.data, (attrName decls "node" d.key).isSome) ∧
      (∃ t, lastText decls "node" "label" n.data = some t ∧ t ≠ []) ∧ (lastText decls "node" "tokens" n.data).isSome)) :
    run ws sp (n.doc w) s = .error .daesoError ∧ ((∃ d ∈ n.data, attrName decls "node" d.key = none) ∨
      (∀ t, lastText decls "node" "label" n.data = some t → t = []) ∨ lastText decls "node" "tokens" n.data = none) := by
  obtain ⟨s1, e1, h1⟩ := h.startNode (ws := ws) (sp := sp) n.id hn
  rcases first_bad (fun d : Data => (attrName decls "node" d.key).isSome) n.data with hk | ⟨pre, x, post, hl, hp, hx⟩
  · obtain ⟨s2, e2, h2⟩ := At.nodeData (ws := ws) (sp := sp) hn w n.data hk bare h1
    obtain ⟨s3, e3, h3⟩ := h2.text (ws := ws) (sp := sp) w
    have hb' : (∀ t, lastText decls "node" "label" n.data = some t → t = []) ∨ lastText decls "node" "tokens" n.data = none := by
      by_contra hc
      push Not at hc
      exact hb ⟨hk, hc.1, Option.isSome_iff_ne_none.mpr hc.2⟩
    refine ⟨?_, Or.inr hb'⟩
    unfold Node.doc spaced
    rw [run, e1]
    dsimp only
    rw [runAll_append, e2]
    dsimp only
    rw [runAll_text, e3]
    dsimp only
    refine h3.endNodeBad (ws := ws) hn ?_
    rw [fill_get _ _ _ _ _ hk, fill_get _ _ _ _ _ hk]
    rcases hb' with hb' | hb'
    · left
      cases hq : lastText decls "node" "label" n.data with
      | none => rfl
      | some t => rw [hb' t hq]; rfl
    · right
      rw [hb']; rfl
  · obtain ⟨s2, e2, h2⟩ := At.nodeData (ws := ws) (sp := sp) hn w pre hp bare h1
    obtain ⟨s3, e3, h3⟩ := h2.text (ws := ws) (sp := sp) w
    have hx' : attrName decls "node" x.key = none := by simpa using hx
    refine ⟨?_, Or.inl ⟨x, by rw [hl]; simp, hx'⟩⟩
    unfold Node.doc spaced
    rw [hl]
    exact elem_fails e1 (stops w Data.doc pre x post e2 e3 (h3.dataBad rfl (by simp) x hx'))

/-- An edge start. -/
theorem At.startEdge (h : At decls i B g ("graph" :: c) cm nd s) (x : Edge)
    (hn : (x.source, x.target) ∉ g.edges.keys) (hs : some x.source ∈ g.nodes.keys) (ht : some x.target ∈ g.nodes.keys) :
    ∃ s1, startElement ws sp "edge" [("source", x.source), ("target", x.target)] s = .ok s1 ∧
      At decls i B { g with edges := g.edges ++ [((x.source, x.target), [("label", .none)])] } ("edge" :: "graph" :: c)
      (some (.edge x.source x.target)) nd s1 := by
  have h1 : At decls i B g ("edge" :: "graph" :: c) cm nd { s with ctx := "edge" :: s.ctx, buf := [] } :=
    ⟨h.ready, h.rep, h.nodef, h.new, by rw [← h.ctx], h.graph, h.bank, h.comp, h.node⟩
  have hnone : g.edges.get? (x.source, x.target) = none := (AD.not_mem_keys_iff _ _).mp hn
  have hs' : g.nodes.has (some x.source) = true := (AD.mem_keys_iff _ _).mp hs
  have ht' : g.nodes.has (some x.target) = true := (AD.mem_keys_iff _ _).mp ht
  unfold startElement
  dsimp only
  rw [if_neg (by decide), if_neg (by decide), if_neg (by decide), h1.wanted]
  dsimp only
  rw [if_neg (by decide), if_pos rfl]
  unfold Graphml.startEdge
  have ha : AD.get [("source", x.source), ("target", x.target)] "source" = .ok x.source := rfl
  have hb : AD.get [("source", x.source), ("target", x.target)] "target" = .ok x.target := rfl
  rw [ha, hb]
  dsimp only
  rw [h1.modGraph (g' := { g with edges := g.edges ++ [((x.source, x.target), [("label", .none)])] }) (by
    unfold addEdge
    rw [if_neg (by rw [hs', ht']; simp), hnone, set_new hn]; rfl)]
  dsimp only
  have h2 : At decls i B { g with edges := g.edges ++ [((x.source, x.target), [("label", .none)])] } ("edge" :: "graph" :: c)
      (some (.edge x.source x.target)) nd
      { s with ctx := "edge" :: s.ctx, buf := [], bank := B ++ [(i, some { g with edges := g.edges ++ [((x.source, x.target), [("label", .none)])] })],
               comp := some (.edge x.source x.target) } :=
    ⟨h1.ready, h1.rep, h1.nodef, h1.new, h1.ctx, h1.graph, rfl, rfl, h1.node⟩
  exact ⟨_, h2.setDefaults (ws := ws) rfl (by simp), h2⟩

/-- An edge without one of its ends. -/
theorem At.edgeNoEnd (h : At decls i B g ("graph" :: c) cm nd s) (w : Text) (x : Edge)
    (hb : some x.source ∉ g.nodes.keys ∨ some x.target ∉ g.nodes.keys) : run ws sp (x.doc w) s = .error .valueError := by
  have h1 : At decls i B g ("edge" :: "graph" :: c) cm nd { s with ctx := "edge" :: s.ctx, buf := [] } :=
    ⟨h.ready, h.rep, h.nodef, h.new, by rw [← h.ctx], h.graph, h.bank, h.comp, h.node⟩
  unfold Edge.doc
  rw [run]
  have : startElement ws sp "edge" [("source", x.source), ("target", x.target)] s = .error .valueError := by
    unfold startElement
    dsimp only
    rw [if_neg (by decide), if_neg (by decide), if_neg (by decide), h1.wanted]
    dsimp only
    rw [if_neg (by decide), if_pos rfl]
    unfold Graphml.startEdge
    have ha : AD.get [("source", x.source), ("target", x.target)] "source" = .ok x.source := rfl
    have hb2 : AD.get [("source", x.source), ("target", x.target)] "target" = .ok x.target := rfl
    rw [ha, hb2]
    dsimp only
    unfold Graphml.modGraph
    rw [h1.graph]
    dsimp only
    have hbk : s.bank = B ++ [(i, some g)] := h.bank
    rw [hbk, get?_last h1.new]
    dsimp only
    unfold addEdge
    rw [if_pos]
    rcases hb with hb | hb
    · left
      unfold AD.has; rw [(AD.not_mem_keys_iff _ _).mp hb]; rfl
    · right
      unfold AD.has; rw [(AD.not_mem_keys_iff _ _).mp hb]; rfl
  rw [this]

/-- An edge that lacks something. -/
theorem At.edgeBad (h : At decls i B g ("graph" :: c) cm nd s) (w : Text) (x : Edge)
    (hn : (x.source, x.target) ∉ g.edges.keys)
    (hb : ¬ ((some x.source ∈ g.nodes.keys ∧ some x.target ∈ g.nodes.keys) ∧ ∀ d ∈ x.data, (attrName decls "edge" d.key).isSome)) :
    (run ws sp (x.doc w) s = .error .valueError ∧ (some x.source ∉ g.nodes.keys ∨ some x.target ∉ g.nodes.keys)) ∨
    (run ws sp (x.doc w) s = .error .daesoError ∧ ∃ d ∈ x.data, attrName decls "edge" d.key = none) := by
  by_cases he : some x.source ∈ g.nodes.keys ∧ some x.target ∈ g.nodes.keys
  · right
    rcases first_bad (fun d : Data => (attrName decls "edge" d.key).isSome) x.data with hk | ⟨pre, y, post, hl, hp, hx⟩
    · exact absurd ⟨he, hk⟩ hb
    · have hx' : attrName decls "edge" y.key = none := by simpa using hx
      obtain ⟨s1, e1, h1⟩ := h.startEdge (ws := ws) (sp := sp) x hn he.1 he.2
      obtain ⟨s2, e2, h2⟩ := At.edgeData (ws := ws) (sp := sp) hn w pre hp [("label", .none)] h1
      obtain ⟨s3, e3, h3⟩ := h2.text (ws := ws) (sp := sp) w
      refine ⟨?_, y, by rw [hl]; simp, hx'⟩
      unfold Edge.doc spaced
      rw [hl]
      exact elem_fails e1 (stops w Data.doc pre y post e2 e3 (h3.dataBad rfl (by simp) y hx'))
  · left
    have he' : some x.source ∉ g.nodes.keys ∨ some x.target ∉ g.nodes.keys := by
      by_contra hc
      push Not at hc
      exact he hc
    exact ⟨h.edgeNoEnd w x he', he'⟩

theorem prefix_nodup {α : Type} {pre post : List α} {x : α} (h : (pre ++ x :: post).Nodup) : pre.Nodup ∧ x ∉ pre := by
  rw [List.nodup_append] at h
  refine ⟨h.1, fun hx => h.2.2 x hx x (by simp) rfl⟩

/-- A graph that lacks something. -/
theorem Top.graphBad (h : Top decls B s) (w : Text) (x : Graph) (hnew : x.id ∉ B.keys)
    (nodeIds : (x.nodes.map Node.id).Nodup)
    (edgeIds : (x.edges.map fun e => (e.source, e.target)).Nodup)
    (hb : ¬ ((∀ e ∈ x.edges, e.source ∈ x.nodes.map Node.id ∧ e.target ∈ x.nodes.map Node.id) ∧
      (∀ d ∈ x.data, (attrName decls "graph" d.key).isSome) ∧
      (∀ n ∈ x.nodes, ∀ d ∈ n.data, (attrName decls "node" d.key).isSome) ∧
      (∀ e ∈ x.edges, ∀ d ∈ e.data, (attrName decls "edge" d.key).isSome) ∧
      (lastText decls "graph" "tokens" x.data).isSome ∧
      (∀ n ∈ x.nodes, ∃ t, lastText decls "node" "label" n.data = some t ∧ t ≠ []) ∧
      (∀ n ∈ x.nodes, (lastText decls "node" "tokens" n.data).isSome))) :
    ∃ e, run ws false (x.doc w) s = .error e ∧ GraphFault decls x e := by
  obtain ⟨s1, e1, h1⟩ := h.startGraph (ws := ws) x hnew
  unfold Graph.doc
  unfold spaced
  rw [List.flatMap_append, List.flatMap_append]
  rcases first_bad (fun d : Data => (attrName decls "graph" d.key).isSome) x.data with hk | ⟨pre, y, post, hl, hp, hx⟩
  swap
  · have hx' : attrName decls "graph" y.key = none := by simpa using hx
    obtain ⟨s2, e2, h2⟩ := h1.graphData (ws := ws) (sp := false) w pre hp
    obtain ⟨s3, e3, h3⟩ := h2.text (ws := ws) (sp := false) w
    refine ⟨.daesoError, ?_, .graphKey y (by rw [hl]; simp) hx'⟩
    have := stops (ws := ws) (sp := false) w Data.doc pre y post e2 e3 (h3.dataBad rfl (by simp) y hx')
    rw [← hl] at this
    rw [List.append_assoc, List.append_assoc]
    exact elem_fails e1 this
  obtain ⟨s2, e2, h2⟩ := h1.graphData (ws := ws) (sp := false) w x.data hk
  obtain ⟨p1, p2, p3, p4, p5, p6⟩ := gfill_props (ws := ws) x.data hk { id := x.id }
  generalize hg0 : gfill ws decls { id := x.id } x.data = g0 at *
  dsimp only at p1 p2 p3 p4 p5 p6
  rcases first_bad (fun n : Node => (∀ d ∈ n.data, (attrName decls "node" d.key).isSome) ∧
      (∃ t, lastText decls "node" "label" n.data = some t ∧ t ≠ []) ∧ (lastText decls "node" "tokens" n.data).isSome) x.nodes
      with hnod | ⟨pre, y, post, hl, hp, hx⟩
  swap
  · have hids := nodeIds
    rw [hl, List.map_append, List.map_cons] at hids
    obtain ⟨q1, q2⟩ := prefix_nodup hids
    obtain ⟨s3, e3, cm, nd, h3⟩ := h2.nodes (ws := ws) (sp := false) w pre q1 (fun n hn => (hp n hn).1)
      (fun n hn => (hp n hn).2.1) (fun n hn => (hp n hn).2.2) p2
    obtain ⟨s4, e4, h4⟩ := h3.text (ws := ws) (sp := false) w
    obtain ⟨b1, b2⟩ := h4.nodeBad (ws := ws) (sp := false) w y (by
      rw [keys_map (key := fun n : Node => some n.id)]
      intro hc
      obtain ⟨m, hm, hme⟩ := List.mem_map.mp hc
      exact q2 (List.mem_map.mpr ⟨m, hm, Option.some.inj hme⟩)) hx
    have hy : y ∈ x.nodes := by rw [hl]; simp
    refine ⟨.daesoError, ?_, ?_⟩
    · have := stops (ws := ws) (sp := false) w (Node.doc w) pre y post e3 e4 b1
      rw [← hl] at this
      rw [List.append_assoc]
      exact elem_fails e1 (by rw [runAll_append, e2]; exact this)
    · rcases b2 with ⟨d, hd, hk⟩ | hk | hk
      · exact .nodeKey y hy d hd hk
      · exact .noLabel y hy hk
      · exact .noNodeTokens y hy hk
  obtain ⟨s3, e3, cm, nd, h3⟩ := h2.nodes (ws := ws) (sp := false) w x.nodes nodeIds (fun n hn => (hnod n hn).1)
      (fun n hn => (hnod n hn).2.1) (fun n hn => (hnod n hn).2.2) p2
  have hkeys : AD.keys (x.nodes.map fun n : Node => (some n.id, fill decls "node" nval bare n.data)) =
      x.nodes.map fun n => some n.id := keys_map x.nodes (fun n : Node => some n.id) _
  have hin : ∀ i, some i ∈ AD.keys (x.nodes.map fun n : Node => (some n.id, fill decls "node" nval bare n.data)) ↔
      i ∈ x.nodes.map Node.id := by
    intro i
    rw [hkeys]
    simp
  rcases first_bad (fun e : Edge => (e.source ∈ x.nodes.map Node.id ∧ e.target ∈ x.nodes.map Node.id) ∧
      ∀ d ∈ e.data, (attrName decls "edge" d.key).isSome) x.edges with hedg | ⟨pre, y, post, hl, hp, hx⟩
  swap
  · have hids := edgeIds
    rw [hl, List.map_append, List.map_cons] at hids
    obtain ⟨q1, q2⟩ := prefix_nodup hids
    obtain ⟨s4, e4, cm', h4⟩ := At.edges (ws := ws) (sp := false) w pre (x.nodes.map Node.id) _ (fun i hi => (hin i).mpr hi)
      q1 (fun e he => (hp e he).1) (fun e he => (hp e he).2) p3 h3
    obtain ⟨s5, e5, h5⟩ := h4.text (ws := ws) (sp := false) w
    have hb := h5.edgeBad (ws := ws) (sp := false) w y (by
      rw [keys_map (key := fun e : Edge => (e.source, e.target))]
      exact q2) (by
        dsimp only
        rw [hin, hin]
        exact hx)
    have hy : y ∈ x.edges := by rw [hl]; simp
    dsimp only at hb
    rw [hin, hin] at hb
    have fin : ∀ e, run ws false (y.doc w) s5 = .error e → run ws false (.elem "graph" [("id", x.id)]
        ((List.flatMap (fun d => [Doc.text w, d]) (x.data.map Data.doc) ++ List.flatMap (fun d => [Doc.text w, d]) (x.nodes.map (Node.doc w)) ++
          List.flatMap (fun d => [Doc.text w, d]) (x.edges.map (Edge.doc w))) ++ [Doc.text w])) s = .error e := by
      intro e he
      have := stops (ws := ws) (sp := false) w (Edge.doc w) pre y post e4 e5 he
      rw [← hl] at this
      exact elem_fails e1 (by rw [runAll_append, runAll_append, e2]; dsimp only; rw [e3]; exact this)
    rcases hb with ⟨he, hb⟩ | ⟨he, d, hd, hb⟩
    · exact ⟨_, fin _ he, .noEnd y hy hb⟩
    · exact ⟨_, fin _ he, .edgeKey y hy d hd hb⟩
  obtain ⟨s4, e4, cm', h4⟩ := At.edges (ws := ws) (sp := false) w x.edges (x.nodes.map Node.id) _ (fun i hi => (hin i).mpr hi)
      edgeIds (fun e he => (hedg e he).1) (fun e he => (hedg e he).2) p3 h3
  have htok : lastText decls "graph" "tokens" x.data = none := by
    by_contra hc
    exact hb ⟨fun e he => (hedg e he).1, hk, fun n hn => (hnod n hn).1, fun e he => (hedg e he).2,
      Option.isSome_iff_ne_none.mpr hc, fun n hn => (hnod n hn).2.1, fun n hn => (hnod n hn).2.2⟩
  obtain ⟨s5, e5, h5⟩ := h4.text (ws := ws) (sp := false) w
  refine ⟨.daesoError, ?_, .noTokens htok⟩
  rw [run, e1]
  dsimp only
  rw [runAll_append, runAll_append, runAll_append, e2]
  dsimp only
  rw [e3]
  dsimp only
  rw [e4]
  dsimp only
  rw [runAll_text, e5]
  dsimp only
  unfold endElement
  rw [if_pos rfl]
  unfold endGraph
  rw [h5.wanted]
  dsimp only
  unfold Graphml.modGraph
  rw [h5.graph]
  dsimp only
  rw [h5.bank, get?_last h5.new]
  dsimp only
  have : g0.tokens = none := by rw [p5, htok]; rfl
  rw [this]

/-- A declaration for an unknown kind of component. -/
theorem Top.declBad {done : List Decl} (h : Top done B s) (hkeys : ∀ f, f ∉ ["graph", "node", "edge", "all"] → s.keys.get? f = none)
    (d : Decl) (hk : d.kind.getD "all" ∉ ["graph", "node", "edge", "all"]) :
    run ws sp d.doc s = .error .keyError := by
  unfold Decl.doc
  rw [run]
  generalize ha : (([("id", d.id), ("attr.name", d.name)] ++ d.kind.toList.map (fun f => ("for", f)) : AD String String)) = attrs
  have a1 : AD.get attrs "attr.name" = .ok d.name := by rw [← ha]; rfl
  have a3 : (AD.get? attrs "for").getD "all" = d.kind.getD "all" := by
    rw [← ha]
    cases d.kind with
    | none => rfl
    | some f => rfl
  have e1 : startElement ws sp "key" attrs s = .error .keyError := by
    unfold startElement
    dsimp only
    rw [if_neg (by decide), if_pos rfl]
    unfold startKey
    rw [a1, a3]
    dsimp only
    rw [if_neg (by simp [h.ready])]
    unfold AD.get
    rw [hkeys _ hk]
  rw [e1]

/-- Every file with distinct ids either loads or has a fault for which the exception is raised. -/
theorem file_or_fault (ws : Char → Bool) (w : Text) (f : File) (hd : Distinct f) :
    Valid f ∨ ∃ e, load ws (f.doc w) = .error e ∧ Fault f e := by
  have h0 : Top [] [] (startGraphml { bank := [], ctx := ["graphml"] }) := by
    refine ⟨rfl, ?_, ?_, rfl, rfl, rfl⟩
    · intro f hf
      refine ⟨[], ?_, ?_⟩
      · simp only [List.mem_cons, List.not_mem_nil, or_false] at hf
        rcases hf with rfl | rfl | rfl | rfl <;> rfl
      · intro k
        exact ⟨rfl, by intro r hr; simp at hr⟩
    · intro k hk; simp [startGraphml] at hk
  have d0 : ∀ f, f ∉ ["graph", "node", "edge", "all"] →
      (startGraphml { bank := [], ctx := ["graphml"] }).keys.get? f = none := by
    intro f hf
    rw [← AD.not_mem_keys_iff]
    exact hf
  have e0 : startElement ws false "graphml" [] { bank := [] } =
      .ok (startGraphml { bank := [], ctx := ["graphml"] }) := by
    unfold startElement; dsimp only; rw [if_pos rfl]
  have decls : ∀ l : List Decl, (∀ d ∈ l, d.kind.getD "all" ∈ ["graph", "node", "edge", "all"]) →
      ∃ s', runAll ws false ((l.map Decl.doc).flatMap fun d => [.text w, d]) (startGraphml { bank := [], ctx := ["graphml"] }) =
        .ok s' ∧ Top l [] s' ∧ ∀ f, f ∉ ["graph", "node", "edge", "all"] → s'.keys.get? f = none := by
    intro l hl
    refine runAll_each (ws := ws) (sp := false) w Decl.doc l (fun done s => Top done [] s ∧
      ∀ f, f ∉ ["graph", "node", "edge", "all"] → s.keys.get? f = none) ?_ ?_ _ ⟨h0, d0⟩
    · rintro done s ⟨hI, hk⟩
      refine ⟨s, ?_, hI, hk⟩
      unfold run charData
      rw [wanted_none hI.graph, if_pos hI.ready]
    · rintro done x rest s he ⟨hI, hk⟩
      obtain ⟨s', e1, h1, h2⟩ := hI.decl (ws := ws) (sp := false) x (hl x (by rw [he]; simp))
      exact ⟨s', e1, h1, fun f hf => by rw [h2 f hf, hk f hf]⟩
  have fails : ∀ e, runAll ws false (((f.decls.map Decl.doc ++ f.graphs.map (Graph.doc w)).flatMap fun d => [.text w, d]))
      (startGraphml { bank := [], ctx := ["graphml"] }) = .error e → load ws (f.doc w) = .error e := by
    intro e he
    unfold load parseFile File.doc spaced
    rw [elem_fails e0 he]
  rcases first_bad (fun d : Decl => d.kind.getD "all" ∈ ["graph", "node", "edge", "all"]) f.decls with
    hk | ⟨pre, y, post, hl, hp, hx⟩
  swap
  · right
    obtain ⟨s1, e1, h1, h2⟩ := decls pre hp
    refine ⟨.keyError, fails _ ?_, .kind y (by rw [hl]; simp) hx⟩
    have t1 : run ws false (.text w) s1 = .ok s1 := by
      unfold run charData
      rw [wanted_none h1.graph, if_pos h1.ready]
    rw [List.flatMap_append, runAll_append, hl, stops w Decl.doc pre y post e1 t1 (h1.declBad h2 y hx)]
  obtain ⟨s1, e1, h1, -⟩ := decls f.decls hk
  let OK (x : Graph) : Prop := (∀ e ∈ x.edges, e.source ∈ x.nodes.map Node.id ∧ e.target ∈ x.nodes.map Node.id) ∧
      (∀ d ∈ x.data, (attrName f.decls "graph" d.key).isSome) ∧
      (∀ n ∈ x.nodes, ∀ d ∈ n.data, (attrName f.decls "node" d.key).isSome) ∧
      (∀ e ∈ x.edges, ∀ d ∈ e.data, (attrName f.decls "edge" d.key).isSome) ∧
      (lastText f.decls "graph" "tokens" x.data).isSome ∧
      (∀ n ∈ x.nodes, ∃ t, lastText f.decls "node" "label" n.data = some t ∧ t ≠ []) ∧
      (∀ n ∈ x.nodes, (lastText f.decls "node" "tokens" n.data).isSome)
  have graphs : ∀ l r : List Graph, f.graphs = l ++ r → (∀ g ∈ l, OK g) →
      ∃ s', runAll ws false ((l.map (Graph.doc w)).flatMap fun d => [.text w, d]) s1 = .ok s' ∧
        ∃ B, Top f.decls B s' ∧ B.keys = l.map Graph.id := by
    intro l r hlr hl
    refine runAll_each (ws := ws) (sp := false) w (Graph.doc w) l (fun done s => ∃ B, Top f.decls B s ∧ B.keys = done.map Graph.id)
      ?_ ?_ _ ⟨[], h1, rfl⟩
    · rintro done s ⟨B, hI, hB⟩
      obtain ⟨s', e, h'⟩ := hI.text (ws := ws) (sp := false) w
      exact ⟨s', e, B, h', hB⟩
    · rintro done x rest s he ⟨B, hI, hB⟩
      have hx : x ∈ f.graphs := by rw [hlr, he]; simp
      have hfresh : x.id ∉ B.keys := by
        rw [hB]
        have := hd.graphIds
        rw [hlr, he, List.append_assoc, List.map_append, List.cons_append, List.map_cons] at this
        exact (prefix_nodup this).2
      obtain ⟨o1, o2, o3, o4, o5, o6, o7⟩ := hl x (by rw [he]; simp)
      obtain ⟨s', r', e, -, ht⟩ := hI.graphElem (ws := ws) w x hfresh (hd.nodeIds x hx) (hd.edgeIds x hx) o1 o2 o3 o4 o5 o6 o7
      refine ⟨s', e, _, ht, ?_⟩
      unfold AD.keys at hB ⊢
      rw [List.map_append, hB, List.map_append]
      rfl
  rcases first_bad OK f.graphs with hok | ⟨pre, y, post, hl, hp, hx⟩
  · left
    exact ⟨hk, hd.graphIds, hd.nodeIds, hd.edgeIds, fun g hg => (hok g hg).1, fun g hg => (hok g hg).2.1,
      fun g hg => (hok g hg).2.2.1, fun g hg => (hok g hg).2.2.2.1, fun g hg => (hok g hg).2.2.2.2.1,
      fun g hg => (hok g hg).2.2.2.2.2.1, fun g hg => (hok g hg).2.2.2.2.2.2⟩
  · right
    obtain ⟨s2, e2, B, h2, hB⟩ := graphs pre (y :: post) hl hp
    obtain ⟨s3, e3, h3⟩ := h2.text (ws := ws) (sp := false) w
    have hy : y ∈ f.graphs := by rw [hl]; simp
    have hfresh : y.id ∉ B.keys := by
      rw [hB]
      have := hd.graphIds
      rw [hl, List.map_append, List.map_cons] at this
      exact (prefix_nodup this).2
    obtain ⟨e, he, hfault⟩ := h3.graphBad (ws := ws) w y hfresh (hd.nodeIds y hy) (hd.edgeIds y hy) hx
    refine ⟨e, fails _ ?_, .graph y hy e hfault⟩
    rw [List.flatMap_append, runAll_append, e1]
    dsimp only
    rw [hl]
    exact stops w (Graph.doc w) pre y post e2 e3 he

/-- After the nodes of a graph nothing is current. -/
theorem At.nodesComp (w : Text) (l : List Node) (hne : l ≠ []) (nodeIds : (l.map Node.id).Nodup)
    (nodeKeys : ∀ n ∈ l, ∀ d ∈ n.data, (attrName decls "node" d.key).isSome)
    (nodeLabel : ∀ n ∈ l, ∃ t, lastText decls "node" "label" n.data = some t ∧ t ≠ [])
    (nodeTokens : ∀ n ∈ l, (lastText decls "node" "tokens" n.data).isSome) {g0 : Gr} (p2 : g0.nodes = [])
    (h2 : At decls i B g0 ["graph", "graphml"] cm nd s) :
    ∃ s', runAll ws sp ((l.map (Node.doc w)).flatMap fun d => [.text w, d]) s = .ok s' ∧ At decls i B
      { g0 with nodes := l.map fun n => (some n.id, fill decls "node" nval bare n.data) } ["graph", "graphml"] none (some none) s' := by
  obtain ⟨l', n, rfl⟩ := List.eq_nil_or_concat' l |>.resolve_left hne
  have hids := nodeIds
  rw [List.map_append, List.map_singleton] at hids
  obtain ⟨q1, q2⟩ := prefix_nodup hids
  obtain ⟨s3, e3, cm, nd, h3⟩ := h2.nodes (ws := ws) (sp := sp) w l' q1 (fun n hn => nodeKeys n (by simp [hn]))
      (fun n hn => nodeLabel n (by simp [hn])) (fun n hn => nodeTokens n (by simp [hn])) p2
  obtain ⟨s4, e4, h4⟩ := h3.text (ws := ws) (sp := sp) w
  obtain ⟨s5, e5, h5⟩ := h4.nodeElem (ws := ws) (sp := sp) w n (by
      rw [keys_map (key := fun n : Node => some n.id)]
      intro hc
      obtain ⟨m, hm, hme⟩ := List.mem_map.mp hc
      exact q2 (List.mem_map.mpr ⟨m, hm, Option.some.inj hme⟩)) (nodeKeys n (by simp)) (nodeLabel n (by simp)) (nodeTokens n (by simp))
  refine ⟨s5, ?_, ?_⟩
  · rw [List.map_append, List.flatMap_append, runAll_append, e3]
    dsimp only
    simp only [List.map_cons, List.map_nil, List.flatMap_cons, List.flatMap_nil, List.append_nil]
    rw [runAll, e4]
    dsimp only
    rw [runAll, e5]
    exact runAll_nil s5
  · rw [List.map_append]
    exact h5

/-- After the edges of a graph the last one is current. -/
theorem At.edgesComp (w : Text) (l : List Edge) (x : Edge) (ids : List String) (N : AD (Option String) (AD String Val))
    (hN : ∀ i ∈ ids, some i ∈ N.keys)
    (edgeIds : ((l ++ [x]).map fun e => (e.source, e.target)).Nodup)
    (ends : ∀ e ∈ l ++ [x], e.source ∈ ids ∧ e.target ∈ ids)
    (edgeKeys : ∀ e ∈ l ++ [x], ∀ d ∈ e.data, (attrName decls "edge" d.key).isSome) {g0 : Gr} (p3 : g0.edges = [])
    (h3 : At decls i B { g0 with nodes := N } ["graph", "graphml"] cm nd s) :
    ∃ s', runAll ws sp (((l ++ [x]).map (Edge.doc w)).flatMap fun d => [.text w, d]) s = .ok s' ∧ At decls i B
      { g0 with nodes := N,
                edges := (l ++ [x]).map fun e => ((e.source, e.target), fill decls "edge" (fun _ t => .str t) [("label", .none)] e.data) }
      ["graph", "graphml"] (some (.edge x.source x.target)) nd s' := by
  have hids := edgeIds
  rw [List.map_append, List.map_singleton] at hids
  obtain ⟨q1, q2⟩ := prefix_nodup hids
  obtain ⟨s4, e4, cm', h4⟩ := At.edges (ws := ws) (sp := sp) w l ids N hN q1 (fun e he => ends e (by simp [he]))
    (fun e he => edgeKeys e (by simp [he])) p3 h3
  obtain ⟨s5, e5, h5⟩ := h4.text (ws := ws) (sp := sp) w
  obtain ⟨s6, e6, h6⟩ := h5.edgeElem (ws := ws) (sp := sp) w x (by
      rw [keys_map (key := fun e : Edge => (e.source, e.target))]
      exact q2) (hN _ (ends x (by simp)).1) (hN _ (ends x (by simp)).2) (edgeKeys x (by simp))
  refine ⟨s6, ?_, ?_⟩
  · rw [List.map_append, List.flatMap_append, runAll_append, e4]
    dsimp only
    simp only [List.map_cons, List.map_nil, List.flatMap_cons, List.flatMap_nil, List.append_nil]
    rw [runAll, e5]
    dsimp only
    rw [runAll, e6]
    exact runAll_nil s6
  · rw [List.map_append]
    exact h6

/-- A <data> element whose value cannot be stored. -/
theorem At.dataFail (h : At decls i B g c cm nd s) {f n : String} {r : List String} (hc : c = f :: r)
    (hf : f ∈ ["graph", "node", "edge", "all"]) (d : Data) (hn : attrName decls f d.key = some n) {e : Err}
    (hs : ∀ s2, At decls i B g ("data" :: c) cm nd s2 → store ws s2 (some f) n d.pieces.flatten = .error e) :
    run ws sp d.doc s = .error e := by
  unfold Data.doc
  rw [run]
  have h1 : startElement ws sp "data" [("key", d.key)] s =
      .ok { s with ctx := "data" :: s.ctx, buf := [], dataKey := some d.key } := by
    unfold startElement
    dsimp only
    rw [if_neg (by decide), if_neg (by decide), if_neg (by decide)]
    have : Graphml.wanted { s with ctx := "data" :: s.ctx, buf := [] } = .ok true := h.wanted
    rw [this]
    rfl
  rw [h1]
  dsimp only
  have hw : Graphml.wanted { s with ctx := "data" :: s.ctx, buf := [], dataKey := some d.key } = .ok true := h.wanted
  rw [texts hw]
  dsimp only
  have h2 : At decls i B g ("data" :: c) cm nd
      { s with ctx := "data" :: s.ctx, buf := [] ++ d.pieces.flatten, dataKey := some d.key } :=
    ⟨h.ready, h.rep, h.nodef, h.new, by rw [← h.ctx], h.graph, h.bank, h.comp, h.node⟩
  unfold endElement
  rw [if_neg (by decide), h2.wanted]
  dsimp only
  rw [if_neg (by decide), if_pos rfl]
  unfold endData
  rw [lookupName_rep h2.rep hf (by rw [h2.ctx, hc]) rfl hn]
  dsimp only
  have hctx : (("data" :: s.ctx)[1]?) = some f := by rw [h.ctx, hc]; rfl
  rw [hctx]
  have := hs _ h2
  have e0 : ([] : Text) ++ d.pieces.flatten = d.pieces.flatten := rfl
  rw [e0] at this ⊢
  rw [this]

/-- The parser after the declarations of a valid file. -/
theorem decls_run (ws : Char → Bool) (w : Text) (l : List Decl)
    (hk : ∀ d ∈ l, d.kind.getD "all" ∈ ["graph", "node", "edge", "all"]) :
    ∃ s', runAll ws false ((l.map Decl.doc).flatMap fun d => [.text w, d]) (startGraphml { bank := [], ctx := ["graphml"] }) =
      .ok s' ∧ Top l [] s' := by
  have h0 : Top [] [] (startGraphml { bank := [], ctx := ["graphml"] }) := by
    refine ⟨rfl, ?_, ?_, rfl, rfl, rfl⟩
    · intro f hf
      refine ⟨[], ?_, ?_⟩
      · simp only [List.mem_cons, List.not_mem_nil, or_false] at hf
        rcases hf with rfl | rfl | rfl | rfl <;> rfl
      · intro k
        exact ⟨rfl, by intro r hr; simp at hr⟩
    · intro k hk; simp [startGraphml] at hk
  refine runAll_each (ws := ws) (sp := false) w Decl.doc l (fun done s => Top done [] s)
    (fun done s hI => hI.text w) ?_ _ h0
  intro done x rest s he hI
  obtain ⟨s', e1, h1, -⟩ := hI.decl (ws := ws) (sp := false) x (hk x (by rw [he]; simp))
  exact ⟨s', e1, h1⟩

/-- Data of a graph after its nodes. -/
theorem late_node (ws : Char → Bool) (w : Text) (decls : List Decl) (g : Graph) (d : Data) (name : String)
    (hv : Valid ⟨decls, [g]⟩) (hn : attrName decls "graph" d.key = some name) (ht : name ≠ "tokens")
    (hnodes : g.nodes ≠ []) (hedges : g.edges = []) : load ws (lateDoc w decls g d) = .error .typeError := by
  have hg : g ∈ (⟨decls, [g]⟩ : File).graphs := by simp
  obtain ⟨s0, e0, h0⟩ := decls_run ws w decls hv.kinds
  obtain ⟨s0', e0', h0'⟩ := h0.text (ws := ws) (sp := false) w
  obtain ⟨s1, e1, h1⟩ := h0'.startGraph (ws := ws) g (by simp [AD.keys])
  obtain ⟨s2, e2, h2⟩ := h1.graphData (ws := ws) (sp := false) w g.data (hv.graphKeys g hg)
  obtain ⟨p1, p2, p3, p4, p5, p6⟩ := gfill_props (ws := ws) g.data (hv.graphKeys g hg) { id := g.id }
  obtain ⟨s3, e3, h3⟩ := h2.nodesComp (ws := ws) (sp := false) w g.nodes hnodes (hv.nodeIds g hg) (hv.nodeKeys g hg)
    (hv.nodeLabel g hg) (hv.nodeTokens g hg) p2
  obtain ⟨s4, e4, h4⟩ := h3.text (ws := ws) (sp := false) w
  have e5 := h4.dataFail (ws := ws) (sp := false) rfl (by simp) d hn (e := .typeError) (by
    intro s2' h2'
    unfold store
    rw [if_neg (by simp [ht]), if_neg (by simp)]
    unfold setAttr
    rw [h2'.comp])
  have est : startElement ws false "graphml" [] { bank := [] } =
      .ok (startGraphml { bank := [], ctx := ["graphml"] }) := by
    unfold startElement; dsimp only; rw [if_pos rfl]
  unfold load parseFile lateDoc spaced
  rw [elem_fails (e := .typeError) est]
  rw [List.flatMap_append, runAll_append, e0]
  simp only [List.flatMap_cons, List.flatMap_nil, List.append_nil]
  rw [runAll, e0']
  dsimp only
  rw [runAll, elem_fails (e := .typeError) e1]
  rw [hedges, List.map_nil, List.append_nil, List.flatMap_append, List.flatMap_append, runAll_append, runAll_append, e2]
  dsimp only
  rw [e3]
  simp only [List.flatMap_cons, List.flatMap_nil, List.append_nil]
  rw [runAll, e4]
  dsimp only
  rw [runAll, e5]

/-- Data of a graph after its edges. -/
theorem late_edge (ws : Char → Bool) (w : Text) (decls : List Decl) (g : Graph) (l : List Edge) (x : Edge) (d : Data)
    (name : String) (hv : Valid ⟨decls, [g]⟩) (hn : attrName decls "graph" d.key = some name) (ht : name ≠ "tokens")
    (hedges : g.edges = l ++ [x]) :
    ∃ r, load ws (lateDoc w decls g d) = .ok [(g.id, some r)] ∧ (∀ a, r.attrs.get? a = graphValue decls g.data a) ∧
      (∃ D, r.edges.get? (x.source, x.target) = some D ∧
        ∀ a, D.get? a = if a = name then some (.str d.pieces.flatten) else edgeValue decls x.data a) ∧
      r.edges.keys = g.edges.map fun e => (e.source, e.target) := by
  have hg : g ∈ (⟨decls, [g]⟩ : File).graphs := by simp
  obtain ⟨s0, e0, h0⟩ := decls_run ws w decls hv.kinds
  obtain ⟨s0', e0', h0'⟩ := h0.text (ws := ws) (sp := false) w
  obtain ⟨s1, e1, h1⟩ := h0'.startGraph (ws := ws) g (by simp [AD.keys])
  obtain ⟨s2, e2, h2⟩ := h1.graphData (ws := ws) (sp := false) w g.data (hv.graphKeys g hg)
  obtain ⟨p1, p2, p3, p4, p5, p6⟩ := gfill_props (ws := ws) g.data (hv.graphKeys g hg) { id := g.id }
  generalize hg0 : gfill ws decls { id := g.id } g.data = g0 at *
  dsimp only at p1 p2 p3 p4 p5 p6
  obtain ⟨s3, e3, cm, nd, h3⟩ := h2.nodes (ws := ws) (sp := false) w g.nodes (hv.nodeIds g hg) (hv.nodeKeys g hg)
    (hv.nodeLabel g hg) (hv.nodeTokens g hg) p2
  have eids := hv.edgeIds g hg
  have eends := hv.ends g hg
  have ekeys := hv.edgeKeys g hg
  rw [hedges] at eids eends ekeys
  obtain ⟨s4, e4, h4⟩ := At.edgesComp (ws := ws) (sp := false) w l x (g.nodes.map Node.id) _ (by
      intro i hi
      rw [keys_map (key := fun n : Node => some n.id)]
      obtain ⟨n, hn, rfl⟩ := List.mem_map.mp hi
      exact List.mem_map.mpr ⟨n, hn, rfl⟩) eids eends ekeys p3 h3
  obtain ⟨s5, e5, h5⟩ := h4.text (ws := ws) (sp := false) w
  have hids := eids
  rw [List.map_append, List.map_singleton] at hids
  obtain ⟨q1, q2⟩ := prefix_nodup hids
  have hP : (x.source, x.target) ∉ AD.keys (l.map fun e : Edge => ((e.source, e.target),
      fill decls "edge" (fun _ t => Val.str t) [("label", .none)] e.data)) := by
    rw [keys_map (key := fun e : Edge => (e.source, e.target))]
    exact q2
  have hget : AD.get ((l ++ [x]).map fun e : Edge => ((e.source, e.target),
      fill decls "edge" (fun _ t => Val.str t) [("label", .none)] e.data)) (x.source, x.target) =
      .ok (fill decls "edge" (fun _ t => Val.str t) [("label", .none)] x.data) := by
    rw [List.map_append]
    exact AD.get_eq (get?_last hP _)
  obtain ⟨s6, e6, h6⟩ := h5.data (ws := ws) (sp := false) rfl (by simp) d hn (g' := { g0 with
      nodes := g.nodes.map fun n => (some n.id, fill decls "node" nval bare n.data)
      edges := (l.map fun e : Edge => ((e.source, e.target), fill decls "edge" (fun _ t => Val.str t) [("label", .none)] e.data)) ++
        [((x.source, x.target), (fill decls "edge" (fun _ t => Val.str t) [("label", .none)] x.data).set name (.str d.pieces.flatten))] }) (by
    intro s2' h2'
    unfold store
    rw [if_neg (by simp [ht]), if_neg (by simp)]
    unfold setAttr
    rw [h2'.comp]
    dsimp only
    rw [h2'.modGraph (g' := { g0 with
      nodes := g.nodes.map fun n => (some n.id, fill decls "node" nval bare n.data)
      edges := (l.map fun e : Edge => ((e.source, e.target), fill decls "edge" (fun _ t => Val.str t) [("label", .none)] e.data)) ++
        [((x.source, x.target), (fill decls "edge" (fun _ t => Val.str t) [("label", .none)] x.data).set name (.str d.pieces.flatten))] }) (by
      dsimp only
      rw [hget]
      dsimp only
      rw [List.map_append, List.map_singleton, set_last hP])]
    exact ⟨_, rfl, ⟨h2'.ready, h2'.rep, h2'.nodef, h2'.new, h2'.ctx, h2'.graph, rfl, h2'.comp, h2'.node⟩⟩)
  obtain ⟨s7, e7, h7⟩ := h6.text (ws := ws) (sp := false) w
  obtain ⟨tk, htk⟩ := Option.isSome_iff_exists.mp (hv.graphTokens g hg)
  have htk : lastText decls "graph" "tokens" g.data = some tk := htk
  have htok : g0.tokens = some (DaesoGraph.splitWs ws tk) := by rw [p5, htk]; rfl
  have e8 : ∃ r : Gr, endElement ws "graph" s7 = .ok { s7 with ctx := s7.ctx.tail, graph := none, comp := none, bank := [(g.id, some r)] } ∧
      r = { g0 with
      nodes := g.nodes.map fun n => (some n.id, fill decls "node" nval bare n.data)
      edges := (l.map fun e : Edge => ((e.source, e.target), fill decls "edge" (fun _ t => Val.str t) [("label", .none)] e.data)) ++
        [((x.source, x.target), (fill decls "edge" (fun _ t => Val.str t) [("label", .none)] x.data).set name (.str d.pieces.flatten))],
      root := g0.attrs.get? "graph" } := by
    refine ⟨_, ?_, rfl⟩
    unfold endElement
    rw [if_pos rfl]
    unfold endGraph
    rw [h7.wanted]
    dsimp only
    rw [h7.modGraph (g' := { g0 with
      nodes := g.nodes.map fun n => (some n.id, fill decls "node" nval bare n.data)
      edges := (l.map fun e : Edge => ((e.source, e.target), fill decls "edge" (fun _ t => Val.str t) [("label", .none)] e.data)) ++
        [((x.source, x.target), (fill decls "edge" (fun _ t => Val.str t) [("label", .none)] x.data).set name (.str d.pieces.flatten))],
      root := g0.attrs.get? "graph" }) (by dsimp only; rw [htok])]
    rfl
  obtain ⟨r, e8, hr⟩ := e8
  have est : startElement ws false "graphml" [] { bank := [] } =
      .ok (startGraphml { bank := [], ctx := ["graphml"] }) := by
    unfold startElement; dsimp only; rw [if_pos rfl]
  refine ⟨r, ?_, ?_, ?_, ?_⟩
  · unfold load parseFile lateDoc spaced
    rw [run, est]
    dsimp only
    rw [runAll_append, List.flatMap_append, runAll_append, e0]
    simp only [List.flatMap_cons, List.flatMap_nil, List.append_nil, List.cons_append, List.nil_append]
    rw [runAll, e0']
    dsimp only
    rw [runAll, run, e1]
    dsimp only
    rw [runAll_append, List.flatMap_append, List.flatMap_append, List.flatMap_append, runAll_append, runAll_append, runAll_append, e2]
    dsimp only
    rw [e3]
    dsimp only
    rw [hedges, e4]
    simp only [List.flatMap_cons, List.flatMap_nil, List.append_nil]
    rw [runAll, e5]
    dsimp only
    rw [runAll, e6]
    dsimp only
    rw [runAll_nil]
    dsimp only
    rw [runAll_text, e7]
    dsimp only
    rw [e8]
    dsimp only
    rw [runAll_nil]
    dsimp only
    rw [runAll_text, run, charData, wanted_none rfl, if_pos h7.ready]
    dsimp only
    unfold endElement
    rw [if_neg (by decide), wanted_none rfl, if_pos h7.ready]
    dsimp only
    rw [if_neg (by simp)]
  · intro a
    rw [hr]
    dsimp only
    rw [p6]
    unfold graphValue
    by_cases hn : a = "tokens"
    · rw [if_pos hn, if_pos hn]; rfl
    · rw [if_neg hn, if_neg hn]
      show (Option.map Val.str _).or none = _
      rw [Option.or_none]
  · rw [hr]
    dsimp only
    refine ⟨_, get?_last hP _, ?_⟩
    intro a
    rw [AD.get?_set]
    split
    · rfl
    · rw [fill_get _ _ _ _ _ (ekeys x (by simp))]
      unfold edgeValue
      cases lastText decls "edge" a x.data with
      | some t => rfl
      | none =>
        dsimp only
        rw [AD.get?_cons]
        by_cases h1 : a = "label"
        · subst h1; simp
        · rw [if_neg h1, if_neg (fun e => h1 e.symm)]; rfl
  · rw [hr, hedges]
    unfold AD.keys
    simp

end Verif.Graphml
