import Verif.Lemmas.GraphmlFault

/-! C61: the graphs that loading a GraphML file yields are those the file describes; defaults of keys have no effect. -/
set_option linter.unusedSectionVars false
namespace Verif.Props.GraphmlFile
open Verif Verif.Graphml Verif.Spec.GraphmlFile

/-- C61.  Loading a valid file yields its graphs in order, each with the nodes, edges, tokens and attribute values of the
file; whatever text stands between elements and however expat cuts the text of a <data> element. -/
theorem file_means (ws : Char → Bool) (w : Text) (f : File) (hv : Valid f) :
    ∃ bank, load ws (f.doc w) = .ok bank ∧ List.Forall₂ (fun g e => e.1 = g.id ∧ ∃ r, e.2 = some r ∧ Means ws f.decls g r)
      f.graphs bank := file_run ws w f hv

/-- C61.  A file whose ids are distinct loads exactly when it is valid. -/
theorem loads_iff (ws : Char → Bool) (w : Text) (f : File) (hd : Distinct f) :
    (∃ bank, load ws (f.doc w) = .ok bank) ↔ Valid f := by
  constructor
  · rintro ⟨bank, h⟩
    rcases file_or_fault ws w f hd with hv | ⟨e, he, -⟩
    · exact hv
    · rw [he] at h; simp at h
  · intro hv
    obtain ⟨bank, h, -⟩ := file_means ws w f hv
    exact ⟨bank, h⟩

/-- C61.  When it does not load, the exception is that of something that is wrong in the file: DaesoError for an undeclared
key, a graph without tokens, a node without label or tokens; ValueError for an edge without an end; KeyError for a key for
an unknown kind of component. -/
theorem fault_raised (ws : Char → Bool) (w : Text) (f : File) (hd : Distinct f) (e : Err)
    (h : load ws (f.doc w) = .error e) : Fault f e := by
  rcases file_or_fault ws w f hd with hv | ⟨e', he, hf⟩
  · obtain ⟨bank, hb, -⟩ := file_means ws w f hv
    rw [hb] at h; simp at h
  · rw [he] at h
    injection h with h
    exact h ▸ hf

/-- C61.  Data of a graph that come after a node, with no edge before them, raise TypeError. -/
theorem late_after_node (ws : Char → Bool) (w : Text) (decls : List Decl) (g : Graph) (d : Data) (name : String)
    (hv : Valid ⟨decls, [g]⟩) (hn : attrName decls "graph" d.key = some name) (ht : name ≠ "tokens")
    (hnodes : g.nodes ≠ []) (hedges : g.edges = []) : load ws (lateDoc w decls g d) = .error .typeError :=
  late_node ws w decls g d name hv hn ht hnodes hedges

/-- C61.  Data of a graph that come after its edges are stored with the last edge, not with the graph. -/
theorem late_after_edge (ws : Char → Bool) (w : Text) (decls : List Decl) (g : Graph) (l : List Edge) (x : Edge) (d : Data)
    (name : String) (hv : Valid ⟨decls, [g]⟩) (hn : attrName decls "graph" d.key = some name) (ht : name ≠ "tokens")
    (hedges : g.edges = l ++ [x]) :
    ∃ r, load ws (lateDoc w decls g d) = .ok [(g.id, some r)] ∧ (∀ a, r.attrs.get? a = graphValue decls g.data a) ∧
      (∃ D, r.edges.get? (x.source, x.target) = some D ∧
        ∀ a, D.get? a = if a = name then some (.str d.pieces.flatten) else edgeValue decls x.data a) ∧
      r.edges.keys = g.edges.map fun e => (e.source, e.target) :=
  late_edge ws w decls g l x d name hv hn ht hedges

/-- The content of a <key> element: text and <default> elements that hold text. -/
def KeyContent : Doc → Prop
  | .text _ => True
  | .elem tag _ content => tag = "default" ∧ ∀ d ∈ content, ∃ t, d = .text t

private theorem texts_out {ws : Char → Bool} {sp : Bool} {s : St} (h : Graphml.wanted s = .ok false) (l : List Doc)
    (hl : ∀ d ∈ l, ∃ t, d = .text t) : runAll ws sp l s = .ok s := by
  induction l with
  | nil => exact runAll_nil s
  | cons d l ih =>
    obtain ⟨t, rfl⟩ := hl d (by simp)
    rw [runAll, run, charData, h]
    exact ih fun d hd => hl d (by simp [hd])

private theorem content_out {ws : Char → Bool} {sp : Bool} {s : St} (h : Graphml.wanted s = .ok false) (hb : s.buf = [])
    (l : List Doc) (hl : ∀ d ∈ l, KeyContent d) : runAll ws sp l s = .ok s := by
  induction l with
  | nil => exact runAll_nil s
  | cons d l ih =>
    have ih := ih fun d hd => hl d (by simp [hd])
    have hd := hl d (by simp)
    have : run ws sp d s = .ok s := by
      cases d with
      | text t => rw [run, charData, h]
      | elem tag attrs content =>
        obtain ⟨rfl, hc⟩ := hd
        rw [run]
        have hw : Graphml.wanted { s with ctx := "default" :: s.ctx, buf := [] } = .ok false := h
        have e1 : startElement ws sp "default" attrs s = .ok { s with ctx := "default" :: s.ctx, buf := [] } := by
          unfold startElement
          dsimp only
          rw [if_neg (by decide), if_neg (by decide), if_neg (by decide), hw]
        rw [e1]
        dsimp only
        rw [texts_out hw content hc]
        dsimp only
        unfold endElement
        rw [if_neg (by decide), hw]
        dsimp only
        rw [← hb]
        rfl
    rw [runAll, this]
    exact ih

/-- In a state outside graphs, the content of a <key> is without effect. -/
private theorem key_content (ws : Char → Bool) (sp : Bool) (attrs : AD String String) (content : List Doc) (s : St)
    (hg : s.graph = none) (hc : ∀ d ∈ content, KeyContent d) :
    run ws sp (.elem "key" attrs content) s = run ws sp (.elem "key" attrs []) s := by
  rw [run, run]
  cases h : startElement ws sp "key" attrs s with
  | error e => rfl
  | ok s1 =>
    dsimp only
    unfold startElement at h
    dsimp only at h
    rw [if_neg (by decide), if_pos rfl] at h
    have key : Graphml.wanted s1 = .ok false ∧ s1.buf = [] := by
      unfold startKey at h
      split at h
      · simp at h
      · split at h
        · simp at h
        · next hr =>
          split at h
          · simp at h
          · split at h
            · simp at h
            · injection h with h
              subst h
              refine ⟨?_, rfl⟩
              have hr : s.ready = true := by simpa using hr
              unfold wanted
              dsimp only
              rw [hr, hg]; rfl
    rw [content_out key.1 key.2 content hc, runAll_nil]

/-- C61.  Default values given with the keys of a file are never applied: without them the file gives the same result.
(`pre` is whatever precedes the key, with no nested graphs.) -/
theorem defaults_ignored (ws : Char → Bool) (a attrs : AD String String) (pre content post : List Doc)
    (hp : Spec.Graphml.FlatAll pre) (hc : ∀ d ∈ content, KeyContent d) :
    load ws (.elem "graphml" a (pre ++ .elem "key" attrs content :: post)) =
      load ws (.elem "graphml" a (pre ++ .elem "key" attrs [] :: post)) := by
  unfold load parseFile
  rw [run, run]
  have e0 : startElement ws false "graphml" a { bank := [] } = .ok (startGraphml { bank := [], ctx := ["graphml"] }) := by
    unfold startElement; dsimp only; rw [if_pos rfl]
  rw [e0]
  dsimp only
  rw [runAll_append, runAll_append]
  cases h : runAll ws false pre (startGraphml { bank := [], ctx := ["graphml"] }) with
  | error e => rfl
  | ok s =>
    dsimp only
    have ho : Out [] (startGraphml { bank := [], ctx := ["graphml"] }) (startGraphml { bank := [], ctx := ["graphml"] }) := by
      refine ⟨⟨rfl, rfl, rfl, rfl, rfl, ?_, rfl, ?_⟩, rfl, rfl⟩
      · intro k hk; simp [startGraphml] at hk
      · intro i hi; simp at hi
    obtain ⟨S, -, hS⟩ := out_runAll pre hp ho h
    rw [runAll, runAll, key_content ws false attrs content s hS.fgraph hc]

/-! A valid file. -/

private def fileEx : File :=
  { decls := [⟨"tg", some "graph", "tokens"⟩, ⟨"tn", some "node", "tokens"⟩, ⟨"l", none, "label"⟩, ⟨"r", some "graph", "root"⟩]
    graphs := [⟨"g", [⟨"tg", ["a ".toList, "b".toList]⟩, ⟨"r", ["n0".toList]⟩],
      [⟨"n0", [⟨"l", ["np".toList]⟩, ⟨"tn", ["a b".toList]⟩]⟩, ⟨"n1", [⟨"tn", ["b".toList]⟩, ⟨"l", ["n".toList]⟩]⟩],
      [⟨"n0", "n1", [⟨"l", ["hd".toList]⟩]⟩]⟩] }

example : Valid fileEx := by
  refine ⟨?_, ?_, ?_, ?_, ?_, ?_, ?_, ?_, ?_, ?_, ?_⟩
  case refine_10 =>
    intro g hg n hn
    simp only [fileEx, List.mem_cons, List.not_mem_nil, or_false] at hg
    subst hg
    simp only [List.mem_cons, List.not_mem_nil, or_false] at hn
    rcases hn with rfl | rfl
    · exact ⟨"np".toList, by decide +kernel, by decide⟩
    · exact ⟨"n".toList, by decide +kernel, by decide⟩
  all_goals decide +kernel

/-- The root is looked up under "graph", so the data for "root" do not set it. -/
example : load (fun c => c == ' ') (fileEx.doc " ".toList) = .ok [("g", some
    { id := "g", tokens := some ["a".toList, "b".toList], root := none, attrs := [("root", .str "n0".toList)],
      nodes := [(some "n0", [("label", .str "np".toList), ("tokens", .toks ["a".toList, "b".toList])]),
                (some "n1", [("label", .str "n".toList), ("tokens", .toks ["b".toList])])],
      edges := [(("n0", "n1"), [("label", .str "hd".toList)])] })] := by decide +kernel

/-- The root of the graph, given after the edge, becomes an attribute of the edge. -/
example : ∃ r, load (fun c => c == ' ') (lateDoc [] fileEx.decls
    ⟨"g", [⟨"tg", ["a".toList]⟩], [⟨"n0", [⟨"l", ["np".toList]⟩, ⟨"tn", ["a".toList]⟩]⟩], [⟨"n0", "n0", []⟩]⟩ ⟨"r", ["n0".toList]⟩) =
    .ok [("g", some r)] ∧ r.attrs = [] ∧ r.edges = [(("n0", "n0"), [("label", .none), ("root", .str "n0".toList)])] :=
  ⟨{ id := "g", tokens := some ["a".toList], nodes := [(some "n0", [("label", .str "np".toList), ("tokens", .toks ["a".toList])])],
     edges := [(("n0", "n0"), [("label", .none), ("root", .str "n0".toList)])] }, by decide +kernel, rfl, rfl⟩
example : load (fun c => c == ' ') (lateDoc [] fileEx.decls
    ⟨"g", [⟨"tg", ["a".toList]⟩], [⟨"n0", [⟨"l", ["np".toList]⟩, ⟨"tn", ["a".toList]⟩]⟩], []⟩ ⟨"r", ["n0".toList]⟩) =
    .error .typeError := by decide +kernel

/-- Faulty files: an undeclared key, a node without label, an edge without end. -/
private def faulty (n : List Data) (e : List Edge) : File :=
  { fileEx with graphs := [⟨"g", [⟨"tg", ["a".toList]⟩], [⟨"n0", n⟩], e⟩] }
example (n : List Data) (e : List Edge) (he : (e.map fun e => (e.source, e.target)).Nodup) : Distinct (faulty n e) :=
  ⟨by simp [faulty], by simp [faulty], by intro g hg; simp [faulty] at hg; subst hg; exact he⟩
example : load (fun c => c == ' ') ((faulty [⟨"tn", ["a".toList]⟩] []).doc []) = .error .daesoError := by decide +kernel
example : load (fun c => c == ' ') ((faulty [⟨"q", ["a".toList]⟩] []).doc []) = .error .daesoError := by decide +kernel
example : load (fun c => c == ' ') ((faulty [⟨"l", [[]]⟩, ⟨"tn", ["a".toList]⟩] []).doc []) = .error .daesoError := by decide +kernel
example : load (fun c => c == ' ') ((faulty [⟨"l", ["x".toList]⟩, ⟨"tn", ["a".toList]⟩] [⟨"n0", "n1", []⟩]).doc []) =
    .error .valueError := by decide +kernel

/-- A file with a default. -/
example : ∀ d ∈ [Doc.text "\n".toList, .elem "default" [] [.text "yellow".toList]], KeyContent d := by
  intro d hd
  simp only [List.mem_cons, List.not_mem_nil, or_false] at hd
  rcases hd with rfl | rfl
  · exact trivial
  · exact ⟨rfl, fun d hd => ⟨"yellow".toList, by simpa using hd⟩⟩

end Verif.Props.GraphmlFile
