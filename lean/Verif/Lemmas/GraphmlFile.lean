import Verif.Lemmas.Graphml
import Verif.Spec.GraphmlFile

/-! Lemmas about what the GraphML parser makes of a file. -/
set_option linter.unusedSectionVars false
namespace Verif.Graphml
open Verif Verif.Spec.GraphmlFile

/-! ### Dictionaries whose last entry is changed -/

theorem set_new {κ ν : Type} [DecidableEq κ] {B : AD κ ν} {i : κ} (h : i ∉ B.keys) (v : ν) : B.set i v = B ++ [(i, v)] := by
  induction B with
  | nil => rfl
  | cons e B ih =>
    have h' : e.1 ≠ i ∧ i ∉ AD.keys B := by
      simp only [AD.keys, List.map_cons, List.mem_cons, not_or] at h ⊢
      exact ⟨fun x => h.1 x.symm, h.2⟩
    unfold AD.set
    rw [if_neg h'.1, ih h'.2]; rfl

theorem set_last {κ ν : Type} [DecidableEq κ] {B : AD κ ν} {i : κ} (h : i ∉ B.keys) (v w : ν) :
    AD.set (B ++ [(i, v)]) i w = B ++ [(i, w)] := by
  induction B with
  | nil => simp [AD.set]
  | cons e B ih =>
    have h' : e.1 ≠ i ∧ i ∉ AD.keys B := by
      simp only [AD.keys, List.map_cons, List.mem_cons, not_or] at h ⊢
      exact ⟨fun x => h.1 x.symm, h.2⟩
    rw [List.cons_append, AD.set, if_neg h'.1, ih h'.2]; rfl

theorem get?_last {κ ν : Type} [DecidableEq κ] {B : AD κ ν} {i : κ} (h : i ∉ B.keys) (v : ν) :
    AD.get? (B ++ [(i, v)]) i = some v := by
  rw [← set_new h v, AD.get?_set_self]

/-! ### The key table -/

/-- The last declaration of a key for a kind. -/
def named (decls : List Decl) (kind key : String) : Option String :=
  (decls.reverse.find? fun d => d.id = key ∧ d.kind.getD "all" = kind).map Decl.name

theorem attrName_eq (decls : List Decl) (kind key : String) :
    attrName decls kind key = (named decls kind key).or (named decls "all" key) := rfl

theorem named_snoc (decls : List Decl) (d : Decl) (kind key : String) :
    named (decls ++ [d]) kind key = if d.id = key ∧ d.kind.getD "all" = kind then some d.name else named decls kind key := by
  unfold named
  rw [List.reverse_append, List.reverse_singleton, List.singleton_append, List.find?_cons]
  by_cases h : d.id = key ∧ d.kind.getD "all" = kind
  · simp [h]
  · simp [h]

/-- The key table holds the declarations. -/
def Rep (decls : List Decl) (s : St) : Prop :=
  ∀ f ∈ ["graph", "node", "edge", "all"], ∃ m, s.keys.get? f = some m ∧ ∀ k,
    (m.get? k).bind (fun r => (s.heap[r]?).map Key.name) = named decls f k ∧ ∀ r, m.get? k = some r → r < s.heap.length

theorem keyName_rep {decls : List Decl} {s : St} (h : Rep decls s) {f k : String} (hf : f ∈ ["graph", "node", "edge", "all"])
    (hk : s.dataKey = some k) :
    keyName s f = match named decls f k with
      | some n => .ok n
      | none => .error .keyError := by
  obtain ⟨m, hm, hr⟩ := h f hf
  obtain ⟨h1, h2⟩ := hr k
  unfold keyName
  rw [AD.get_eq hm]
  dsimp only
  rw [hk]
  dsimp only
  unfold AD.get
  cases hq : m.get? k with
  | none => rw [hq] at h1; rw [← h1]; rfl
  | some r =>
    rw [hq] at h1
    have hlt := h2 r hq
    dsimp only
    rw [← h1]
    simp [List.getElem?_eq_getElem hlt]

theorem lookupName_rep {decls : List Decl} {s : St} (h : Rep decls s) {f k n : String} {c : List String}
    (hf : f ∈ ["graph", "node", "edge", "all"]) (hc : s.ctx = "data" :: f :: c) (hk : s.dataKey = some k)
    (hn : attrName decls f k = some n) : lookupName s = .ok n := by
  unfold lookupName
  rw [hc]
  simp only [List.getElem?_cons_succ, List.getElem?_cons_zero]
  rw [keyName_rep h hf hk, keyName_rep h (by simp) hk]
  rw [attrName_eq] at hn
  cases h1 : named decls f k with
  | some x => rw [h1] at hn; simp at hn; subst hn; rfl
  | none =>
    rw [h1] at hn
    simp at hn
    simp only [hn]

/-! ### Inside a graph -/

/-- The parser is inside graph `i`, of which `g` is there so far; `B` is the bank before it. -/
structure At (decls : List Decl) (i : String) (B : AD String (Option Gr)) (g : Gr) (c : List String) (cm : Option Comp)
    (nd : Option (Option String)) (s : St) : Prop where
  ready : s.ready = true
  rep : Rep decls s
  nodef : NoDef s
  new : i ∉ B.keys
  ctx : s.ctx = c
  graph : s.graph = some i
  bank : s.bank = B ++ [(i, some g)]
  comp : s.comp = cm
  node : s.node = nd

variable {decls : List Decl} {i : String} {B : AD String (Option Gr)} {g : Gr} {c : List String} {cm : Option Comp}
  {nd : Option (Option String)} {s : St} {ws : Char → Bool} {sp : Bool}

theorem At.wanted (h : At decls i B g c cm nd s) : Graphml.wanted s = .ok true := by
  rw [wanted_some h.graph, if_pos h.ready]

theorem At.modGraph (h : At decls i B g c cm nd s) {f : Gr → Py Gr} {g' : Gr} (hf : f g = .ok g') :
    Graphml.modGraph s f = .ok { s with bank := B ++ [(i, some g')] } := by
  unfold Graphml.modGraph
  rw [h.graph]
  dsimp only
  rw [h.bank, get?_last h.new]
  dsimp only
  rw [hf]
  dsimp only
  rw [set_last h.new]

theorem At.setDefaults (h : At decls i B g c cm nd s) {f : String} {r : List String} (hc : c = f :: r)
    (hf : f ∈ ["graph", "node", "edge", "all"]) : Graphml.setDefaults ws s = .ok s := by
  rw [setDefaults_none ws s h.nodef]
  have : dcheck s = .ok () := by
    unfold dcheck
    rw [h.ctx, hc]
    dsimp only
    rw [if_neg (by simp [h.ready])]
    obtain ⟨m, hm, -⟩ := h.rep "all" (by simp)
    obtain ⟨m', hm', -⟩ := h.rep f hf
    rw [AD.get_eq hm, AD.get_eq hm']
  rw [this]

theorem At.text (h : At decls i B g c cm nd s) (t : Text) :
    ∃ s', run ws sp (.text t) s = .ok s' ∧ At decls i B g c cm nd s' := by
  refine ⟨{ s with buf := s.buf ++ t }, ?_, ⟨h.ready, h.rep, h.nodef, h.new, h.ctx, h.graph, h.bank, h.comp, h.node⟩⟩
  unfold run charData
  rw [h.wanted]

theorem texts {s : St} (h : Graphml.wanted s = .ok true) (l : List Text) :
    runAll ws sp (l.map .text) s = .ok { s with buf := s.buf ++ l.flatten } := by
  induction l generalizing s with
  | nil => simp [runAll]
  | cons t l ih =>
    rw [List.map_cons, runAll, run, charData, h]
    dsimp only
    have h2 : Graphml.wanted { s with buf := s.buf ++ t } = .ok true := h
    rw [ih h2]
    simp

/-- A <data> element: its text is stored under the name of its key. -/
theorem At.data (h : At decls i B g c cm nd s) {f n : String} {r : List String} (hc : c = f :: r)
    (hf : f ∈ ["graph", "node", "edge", "all"]) (d : Data) (hn : attrName decls f d.key = some n) {g' : Gr}
    (hs : ∀ s2, At decls i B g ("data" :: c) cm nd s2 →
      ∃ s3, store ws s2 (some f) n d.pieces.flatten = .ok s3 ∧ At decls i B g' ("data" :: c) cm nd s3) :
    ∃ s', run ws sp d.doc s = .ok s' ∧ At decls i B g' c cm nd s' := by
  unfold Data.doc
  rw [run]
  have h1 : startElement ws sp "data" [("key", d.key)] s =
      .ok { s with ctx := "data" :: s.ctx, buf := [], dataKey := some d.key } := by
    unfold startElement
    dsimp only
    rw [if_neg (by decide), if_neg (by decide), if_neg (by decide)]
    have : Graphml.wanted { s with ctx := "data" :: s.ctx, buf := [] } = .ok true := h.wanted
    rw [this]
    rfl
  rw [h1]
  dsimp only
  have hw : Graphml.wanted { s with ctx := "data" :: s.ctx, buf := [], dataKey := some d.key } = .ok true := h.wanted
  rw [texts hw]
  dsimp only
  have h2 : At decls i B g ("data" :: c) cm nd
      { s with ctx := "data" :: s.ctx, buf := [] ++ d.pieces.flatten, dataKey := some d.key } :=
    ⟨h.ready, h.rep, h.nodef, h.new, by rw [← h.ctx], h.graph, h.bank, h.comp, h.node⟩
  obtain ⟨s3, h3, h4⟩ := hs _ h2
  unfold endElement
  rw [if_neg (by decide), h2.wanted]
  dsimp only
  rw [if_neg (by decide), if_pos rfl]
  unfold endData
  rw [lookupName_rep h2.rep hf (by rw [h2.ctx, hc]) rfl hn]
  dsimp only
  have hctx : (("data" :: s.ctx)[1]?) = some f := by rw [h.ctx, hc]; rfl
  rw [hctx]
  have : ([] : Text) ++ d.pieces.flatten = d.pieces.flatten := rfl
  rw [this] at h3 ⊢
  rw [h3]
  refine ⟨_, rfl, ⟨h4.ready, h4.rep, h4.nodef, h4.new, ?_, h4.graph, h4.bank, h4.comp, h4.node⟩⟩
  show s3.ctx.tail = c
  rw [h4.ctx]; rfl

theorem runAll_nil (s : St) : runAll ws sp [] s = .ok s := by simp [runAll]

theorem runAll_append (a b : List Doc) (s : St) :
    runAll ws sp (a ++ b) s = match runAll ws sp a s with
      | .error e => .error e
      | .ok s' => runAll ws sp b s' := by
  induction a generalizing s with
  | nil => simp [runAll]
  | cons d a ih =>
    rw [List.cons_append, runAll, runAll]
    cases run ws sp d s with
    | error e => rfl
    | ok s' => exact ih s'

/-- A list of elements with text before each. -/
theorem runAll_each {α : Type} (w : Text) (docOf : α → Doc) (l : List α) (I : List α → St → Prop)
    (htext : ∀ done s, I done s → ∃ s', run ws sp (.text w) s = .ok s' ∧ I done s')
    (hstep : ∀ done x rest s, l = done ++ x :: rest → I done s → ∃ s', run ws sp (docOf x) s = .ok s' ∧ I (done ++ [x]) s')
    (s : St) (h : I [] s) :
    ∃ s', runAll ws sp ((l.map docOf).flatMap fun d => [.text w, d]) s = .ok s' ∧ I l s' := by
  suffices ∀ (rest done : List α) (s : St), l = done ++ rest → I done s →
      ∃ s', runAll ws sp ((rest.map docOf).flatMap fun d => [.text w, d]) s = .ok s' ∧ I l s' from this l [] s rfl h
  intro rest
  induction rest with
  | nil =>
    intro done s hl hI
    rw [List.append_nil] at hl
    exact ⟨s, by simp [runAll], hl ▸ hI⟩
  | cons x rest ih =>
    intro done s hl hI
    obtain ⟨s1, e1, h1⟩ := htext done s hI
    obtain ⟨s2, e2, h2⟩ := hstep done x rest s1 hl h1
    obtain ⟨s3, e3, h3⟩ := ih (done ++ [x]) s2 (by rw [hl]; simp) h2
    refine ⟨s3, ?_, h3⟩
    rw [List.map_cons, List.flatMap_cons]
    simp only [List.cons_append, List.nil_append]
    rw [runAll, e1]
    dsimp only
    rw [runAll, e2]
    exact e3

/-! ### Dictionaries built from data -/

/-- The dictionary after some data. -/
def fill (decls : List Decl) (kind : String) (val : String → Text → Val) (d0 : AD String Val) (data : List Data) :
    AD String Val :=
  data.foldl (fun d x => d.set ((attrName decls kind x.key).getD "") (val ((attrName decls kind x.key).getD "") x.pieces.flatten))
    d0

theorem lastText_snoc (decls : List Decl) (kind name : String) (data : List Data) (x : Data) :
    lastText decls kind name (data ++ [x]) =
      if attrName decls kind x.key = some name then some x.pieces.flatten else lastText decls kind name data := by
  unfold lastText
  rw [List.reverse_append, List.reverse_singleton, List.singleton_append, List.find?_cons]
  by_cases h : attrName decls kind x.key = some name
  · simp [h]
  · simp [h]

theorem fill_get (decls : List Decl) (kind : String) (val : String → Text → Val) (d0 : AD String Val) (data : List Data)
    (hk : ∀ d ∈ data, (attrName decls kind d.key).isSome) (name : String) :
    (fill decls kind val d0 data).get? name = match lastText decls kind name data with
      | some t => some (val name t)
      | none => d0.get? name := by
  induction data using List.reverseRecOn with
  | nil => rfl
  | append_singleton data x ih =>
    have ih := ih fun d hd => hk d (by simp [hd])
    obtain ⟨n, hn⟩ := Option.isSome_iff_exists.mp (hk x (by simp))
    rw [lastText_snoc]
    unfold fill at ih ⊢
    rw [List.foldl_append]
    simp only [List.foldl_cons, List.foldl_nil]
    rw [hn]
    simp only [Option.getD_some, AD.get?_set]
    by_cases h : name = n
    · subst h; simp
    · have h' : ¬ some n = some name := fun e => h (Option.some.inj e).symm
      rw [if_neg h, if_neg h']
      exact ih

theorem fill_snoc (decls : List Decl) (kind : String) (val : String → Text → Val) (d0 : AD String Val) (data : List Data)
    (x : Data) {n : String} (hn : attrName decls kind x.key = some n) :
    fill decls kind val d0 (data ++ [x]) = (fill decls kind val d0 data).set n (val n x.pieces.flatten) := by
  unfold fill
  rw [List.foldl_append]
  simp [hn]

/-- Values of node attributes. -/
def nval (name : String) (t : Text) : Val := if name = "tokens" then .toks (DaesoGraph.splitSpace t) else .str t

/-- The data of a node. -/
theorem At.nodeData {n : String} {P : AD (Option String) (AD String Val)} (hP : some n ∉ P.keys) (w : Text)
    (data : List Data) (hk : ∀ d ∈ data, (attrName decls "node" d.key).isSome) (d0 : AD String Val) {r : List String}
    (h : At decls i B { g with nodes := P ++ [(some n, d0)] } ("node" :: r) (some (.node (some n))) (some (some n)) s) :
    ∃ s', runAll ws sp ((data.map Data.doc).flatMap fun d => [.text w, d]) s = .ok s' ∧
      At decls i B { g with nodes := P ++ [(some n, fill decls "node" nval d0 data)] } ("node" :: r)
        (some (.node (some n))) (some (some n)) s' := by
  refine runAll_each w Data.doc data (fun done s => At decls i B
    { g with nodes := P ++ [(some n, fill decls "node" nval d0 done)] } ("node" :: r) (some (.node (some n)))
    (some (some n)) s) (fun done s hI => hI.text w) ?_ s h
  intro done x rest s hl hI
  obtain ⟨m, hm⟩ := Option.isSome_iff_exists.mp (hk x (by rw [hl]; simp))
  refine hI.data rfl (by simp) x hm ?_
  intro s2 h2
  rw [fill_snoc _ _ _ _ _ _ hm]
  have hget : AD.get (P ++ [(some n, fill decls "node" nval d0 done)]) (some n) = .ok (fill decls "node" nval d0 done) :=
    AD.get_eq (get?_last hP _)
  unfold store
  rw [if_neg (by simp)]
  by_cases ht : m = "tokens"
  · rw [if_pos ⟨ht, rfl⟩, h2.node]
    dsimp only
    rw [h2.modGraph (g' := { g with nodes := P ++ [(some n, (fill decls "node" nval d0 done).set m (nval m x.pieces.flatten))] })
      (by dsimp only; rw [hget]; dsimp only; rw [set_last hP]; subst ht; rfl)]
    exact ⟨_, rfl, ⟨h2.ready, h2.rep, h2.nodef, h2.new, h2.ctx, h2.graph, rfl, h2.comp, h2.node⟩⟩
  · rw [if_neg (by simp [ht])]
    unfold setAttr
    rw [h2.comp]
    dsimp only
    rw [h2.modGraph (g' := { g with nodes := P ++ [(some n, (fill decls "node" nval d0 done).set m (nval m x.pieces.flatten))] })
      (by dsimp only; rw [hget]; dsimp only; rw [set_last hP]; unfold nval; rw [if_neg ht])]
    exact ⟨_, rfl, ⟨h2.ready, h2.rep, h2.nodef, h2.new, h2.ctx, h2.graph, rfl, h2.comp, h2.node⟩⟩

/-- The data of an edge. -/
theorem At.edgeData {a b : String} {P : AD (String × String) (AD String Val)} (hP : (a, b) ∉ P.keys) (w : Text)
    (data : List Data) (hk : ∀ d ∈ data, (attrName decls "edge" d.key).isSome) (d0 : AD String Val) {r : List String}
    (h : At decls i B { g with edges := P ++ [((a, b), d0)] } ("edge" :: r) (some (.edge a b)) nd s) :
    ∃ s', runAll ws sp ((data.map Data.doc).flatMap fun d => [.text w, d]) s = .ok s' ∧
      At decls i B { g with edges := P ++ [((a, b), fill decls "edge" (fun _ t => .str t) d0 data)] } ("edge" :: r)
        (some (.edge a b)) nd s' := by
  refine runAll_each w Data.doc data (fun done s => At decls i B
    { g with edges := P ++ [((a, b), fill decls "edge" (fun _ t => .str t) d0 done)] } ("edge" :: r) (some (.edge a b))
    nd s) (fun done s hI => hI.text w) ?_ s h
  intro done x rest s hl hI
  obtain ⟨m, hm⟩ := Option.isSome_iff_exists.mp (hk x (by rw [hl]; simp))
  refine hI.data rfl (by simp) x hm ?_
  intro s2 h2
  rw [fill_snoc _ _ _ _ _ _ hm]
  have hget : AD.get (P ++ [((a, b), fill decls "edge" (fun _ t => Val.str t) d0 done)]) (a, b) =
      .ok (fill decls "edge" (fun _ t => .str t) d0 done) := AD.get_eq (get?_last hP _)
  unfold store
  rw [if_neg (by simp), if_neg (by simp)]
  unfold setAttr
  rw [h2.comp]
  dsimp only
  rw [h2.modGraph (g' := { g with edges := P ++ [((a, b), (fill decls "edge" (fun _ t => .str t) d0 done).set m
    (.str x.pieces.flatten))] }) (by dsimp only; rw [hget]; dsimp only; rw [set_last hP])]
  exact ⟨_, rfl, ⟨h2.ready, h2.rep, h2.nodef, h2.new, h2.ctx, h2.graph, rfl, h2.comp, h2.node⟩⟩

/-- The graph after its own data. -/
def gfill (ws : Char → Bool) (decls : List Decl) (g : Gr) (data : List Data) : Gr :=
  data.foldl (fun g x => if attrName decls "graph" x.key = some "tokens"
    then { g with tokens := some (DaesoGraph.splitWs ws x.pieces.flatten) }
    else { g with attrs := g.attrs.set ((attrName decls "graph" x.key).getD "") (.str x.pieces.flatten) }) g

/-- The data of a graph. -/
theorem At.graphData (w : Text) (data : List Data) (hk : ∀ d ∈ data, (attrName decls "graph" d.key).isSome)
    {r : List String} (h : At decls i B g ("graph" :: r) (some .graph) nd s) :
    ∃ s', runAll ws sp ((data.map Data.doc).flatMap fun d => [.text w, d]) s = .ok s' ∧
      At decls i B (gfill ws decls g data) ("graph" :: r) (some .graph) nd s' := by
  refine runAll_each w Data.doc data (fun done s => At decls i B (gfill ws decls g done) ("graph" :: r) (some .graph) nd s)
    (fun done s hI => hI.text w) ?_ s h
  intro done x rest s hl hI
  obtain ⟨m, hm⟩ := Option.isSome_iff_exists.mp (hk x (by rw [hl]; simp))
  refine hI.data rfl (by simp) x hm ?_
  intro s2 h2
  have hsn : gfill ws decls g (done ++ [x]) = if m = "tokens"
      then { gfill ws decls g done with tokens := some (DaesoGraph.splitWs ws x.pieces.flatten) }
      else { gfill ws decls g done with attrs := (gfill ws decls g done).attrs.set m (.str x.pieces.flatten) } := by
    unfold gfill
    rw [List.foldl_append]
    simp [hm]
  rw [hsn]
  unfold store
  by_cases ht : m = "tokens"
  · rw [if_pos ⟨ht, rfl⟩, if_pos ht]
    exact ⟨_, h2.modGraph rfl, ⟨h2.ready, h2.rep, h2.nodef, h2.new, h2.ctx, h2.graph, rfl, h2.comp, h2.node⟩⟩
  · rw [if_neg (by simp [ht]), if_neg (by simp [ht]), if_neg ht]
    unfold setAttr
    rw [h2.comp]
    exact ⟨_, h2.modGraph rfl, ⟨h2.ready, h2.rep, h2.nodef, h2.new, h2.ctx, h2.graph, rfl, h2.comp, h2.node⟩⟩

theorem gfill_props (data : List Data) (hk : ∀ d ∈ data, (attrName decls "graph" d.key).isSome) (g : Gr) :
    (gfill ws decls g data).id = g.id ∧ (gfill ws decls g data).nodes = g.nodes ∧ (gfill ws decls g data).edges = g.edges ∧
    (gfill ws decls g data).root = g.root ∧
    (gfill ws decls g data).tokens = ((lastText decls "graph" "tokens" data).map (DaesoGraph.splitWs ws)).or g.tokens ∧
    ∀ name, (gfill ws decls g data).attrs.get? name = if name = "tokens" then g.attrs.get? name
      else ((lastText decls "graph" name data).map Val.str).or (g.attrs.get? name) := by
  induction data using List.reverseRecOn with
  | nil => simp [gfill, lastText]
  | append_singleton data x ih =>
    obtain ⟨h1, h2, h3, h4, h5, h6⟩ := ih fun d hd => hk d (by simp [hd])
    obtain ⟨m, hm⟩ := Option.isSome_iff_exists.mp (hk x (by simp))
    have hsn : gfill ws decls g (data ++ [x]) = if m = "tokens"
        then { gfill ws decls g data with tokens := some (DaesoGraph.splitWs ws x.pieces.flatten) }
        else { gfill ws decls g data with attrs := (gfill ws decls g data).attrs.set m (.str x.pieces.flatten) } := by
      unfold gfill
      rw [List.foldl_append]
      simp [hm]
    rw [hsn]
    by_cases ht : m = "tokens"
    · subst ht
      rw [if_pos rfl]
      refine ⟨h1, h2, h3, h4, ?_, ?_⟩
      · rw [lastText_snoc, if_pos hm]; rfl
      · intro name
        rw [lastText_snoc]
        by_cases hn : name = "tokens"
        · rw [if_pos hn]; have := h6 name; rw [if_pos hn] at this; exact this
        · rw [if_neg hn, if_neg (by rw [hm]; exact fun e => hn (Option.some.inj e).symm)]
          have := h6 name; rw [if_neg hn] at this; exact this
    · rw [if_neg ht]
      refine ⟨h1, h2, h3, h4, ?_, ?_⟩
      · rw [lastText_snoc, if_neg (by rw [hm]; exact fun e => ht (Option.some.inj e))]; exact h5
      · intro name
        show (AD.set _ m _).get? name = _
        rw [AD.get?_set, lastText_snoc, hm]
        by_cases hn : name = m
        · subst hn
          rw [if_pos rfl, if_neg ht, if_pos rfl]; rfl
        · rw [if_neg hn, if_neg (c := some m = some name) (fun e => hn (Option.some.inj e).symm)]
          exact h6 name

/-- A node before its data. -/
def bare : AD String Val := [("label", .none), ("tokens", .toks [])]

theorem At.startNode (h : At decls i B g ("graph" :: c) cm nd s) (n : String) (hn : some n ∉ g.nodes.keys) :
    ∃ s', startElement ws sp "node" [("id", n)] s = .ok s' ∧
      At decls i B { g with nodes := g.nodes ++ [(some n, bare)] } ("node" :: "graph" :: c) (some (.node (some n)))
        (some (some n)) s' := by
  unfold startElement
  dsimp only
  rw [if_neg (by decide), if_neg (by decide), if_neg (by decide)]
  have h1 : At decls i B g ("node" :: "graph" :: c) cm nd { s with ctx := "node" :: s.ctx, buf := [] } :=
    ⟨h.ready, h.rep, h.nodef, h.new, by rw [← h.ctx], h.graph, h.bank, h.comp, h.node⟩
  rw [h1.wanted]
  dsimp only
  rw [if_pos rfl]
  unfold Graphml.startNode
  have hid : AD.get? [("id", n)] "id" = some n := rfl
  have hnone : g.nodes.get? (some n) = none := (AD.not_mem_keys_iff _ _).mp hn
  rw [hid, h1.modGraph (g' := { g with nodes := g.nodes ++ [(some n, bare)] }) (by
    unfold addNode
    rw [hnone, set_new hn]; rfl)]
  dsimp only
  have h2 : At decls i B { g with nodes := g.nodes ++ [(some n, bare)] } ("node" :: "graph" :: c) (some (.node (some n))) nd
      { s with ctx := "node" :: s.ctx, buf := [], bank := B ++ [(i, some { g with nodes := g.nodes ++ [(some n, bare)] })],
               comp := some (.node (some n)) } :=
    ⟨h1.ready, h1.rep, h1.nodef, h1.new, h1.ctx, h1.graph, rfl, rfl, h1.node⟩
  have h3 := h2.setDefaults (ws := ws) rfl (by simp)
  rw [h3]
  exact ⟨_, rfl, ⟨h2.ready, h2.rep, h2.nodef, h2.new, h2.ctx, h2.graph, rfl, rfl, rfl⟩⟩

theorem At.getNode {n : String} {P : AD (Option String) (AD String Val)} {d : AD String Val} (hP : some n ∉ P.keys)
    (h : At decls i B { g with nodes := P ++ [(some n, d)] } c (some (.node (some n))) nd s) (name : String) :
    getAttr s name = .ok ((d.get? name).getD .none) := by
  unfold getAttr
  rw [h.comp, h.graph]
  simp only [Option.bind_some, h.bank, get?_last h.new, id]
  rw [get?_last hP]; rfl

theorem At.endNode {n : String} {P : AD (Option String) (AD String Val)} {d : AD String Val} (hP : some n ∉ P.keys)
    (h : At decls i B { g with nodes := P ++ [(some n, d)] } ("node" :: c) (some (.node (some n))) nd s)
    (hl : ((d.get? "label").getD .none).truthy = true) (ht : ((d.get? "tokens").getD .none).truthy = true) :
    ∃ s', endElement ws "node" s = .ok s' ∧
      At decls i B { g with nodes := P ++ [(some n, d)] } c none (some none) s' := by
  unfold endElement
  rw [if_neg (by decide), h.wanted]
  dsimp only
  rw [if_pos (by decide)]
  unfold Graphml.endNode
  rw [h.getNode hP, h.getNode hP]
  dsimp only
  rw [if_neg (by rw [hl]; decide), if_neg (by rw [ht]; decide)]
  exact ⟨_, rfl, ⟨h.ready, h.rep, h.nodef, h.new, by show s.ctx.tail = c; rw [h.ctx]; rfl, h.graph, h.bank, rfl, rfl⟩⟩

theorem runAll_text (w : Text) (s : St) : runAll ws sp [.text w] s = run ws sp (.text w) s := by
  rw [runAll]
  cases run ws sp (.text w) s with
  | error e => rfl
  | ok s' => simp [runAll]

theorem At.nodeElem (h : At decls i B g ("graph" :: c) cm nd s) (w : Text) (n : Node) (hn : some n.id ∉ g.nodes.keys)
    (hk : ∀ d ∈ n.data, (attrName decls "node" d.key).isSome)
    (hl : ∃ t, lastText decls "node" "label" n.data = some t ∧ t ≠ [])
    (ht : (lastText decls "node" "tokens" n.data).isSome) :
    ∃ s', run ws sp (n.doc w) s = .ok s' ∧
      At decls i B { g with nodes := g.nodes ++ [(some n.id, fill decls "node" nval bare n.data)] } ("graph" :: c) none
        (some none) s' := by
  unfold Node.doc
  rw [run]
  obtain ⟨s1, e1, h1⟩ := h.startNode (ws := ws) (sp := sp) n.id hn
  obtain ⟨s2, e2, h2⟩ := At.nodeData (ws := ws) (sp := sp) hn w n.data hk bare h1
  obtain ⟨s3, e3, h3⟩ := h2.text (ws := ws) (sp := sp) w
  have hlab : (fill decls "node" nval bare n.data).get? "label" = some (nval "label" ((lastText decls "node" "label" n.data).getD [])) := by
    rw [fill_get _ _ _ _ _ hk]
    obtain ⟨t, ht, -⟩ := hl
    rw [ht]; rfl
  have htok : (fill decls "node" nval bare n.data).get? "tokens" =
      some (nval "tokens" ((lastText decls "node" "tokens" n.data).getD [])) := by
    rw [fill_get _ _ _ _ _ hk]
    obtain ⟨t, ht⟩ := Option.isSome_iff_exists.mp ht
    rw [ht]; rfl
  obtain ⟨s4, e4, h4⟩ := h3.endNode (ws := ws) hn (by
    rw [hlab]
    obtain ⟨t, ht, hne⟩ := hl
    rw [ht]
    simpa [nval, Val.truthy] using hne) (by
    rw [htok]
    have : ∀ t : Text, DaesoGraph.splitSpace t ≠ [] := by
      intro t
      cases t with
      | nil => simp [DaesoGraph.splitSpace]
      | cons c t =>
        unfold DaesoGraph.splitSpace
        split
        · simp
        · split <;> simp
    simpa [nval, Val.truthy] using this _)
  rw [e1]
  dsimp only
  unfold spaced
  rw [runAll_append, e2]
  dsimp only
  rw [runAll_text, e3]
  exact ⟨s4, e4, h4⟩

theorem At.edgeElem (h : At decls i B g ("graph" :: c) cm nd s) (w : Text) (x : Edge)
    (hn : (x.source, x.target) ∉ g.edges.keys) (hs : some x.source ∈ g.nodes.keys) (ht : some x.target ∈ g.nodes.keys)
    (hk : ∀ d ∈ x.data, (attrName decls "edge" d.key).isSome) :
    ∃ s', run ws sp (x.doc w) s = .ok s' ∧
      At decls i B { g with edges := g.edges ++ [((x.source, x.target), fill decls "edge" (fun _ t => .str t) [("label", .none)] x.data)] }
        ("graph" :: c) (some (.edge x.source x.target)) nd s' := by
  unfold Edge.doc
  rw [run]
  have h1 : At decls i B g ("edge" :: "graph" :: c) cm nd { s with ctx := "edge" :: s.ctx, buf := [] } :=
    ⟨h.ready, h.rep, h.nodef, h.new, by rw [← h.ctx], h.graph, h.bank, h.comp, h.node⟩
  have hnone : g.edges.get? (x.source, x.target) = none := (AD.not_mem_keys_iff _ _).mp hn
  have hs' : g.nodes.has (some x.source) = true := (AD.mem_keys_iff _ _).mp hs
  have ht' : g.nodes.has (some x.target) = true := (AD.mem_keys_iff _ _).mp ht
  obtain ⟨s1, e1, h2⟩ : ∃ s1, startElement ws sp "edge" [("source", x.source), ("target", x.target)] s = .ok s1 ∧
      At decls i B { g with edges := g.edges ++ [((x.source, x.target), [("label", .none)])] } ("edge" :: "graph" :: c)
      (some (.edge x.source x.target)) nd s1 := by
    unfold startElement
    dsimp only
    rw [if_neg (by decide), if_neg (by decide), if_neg (by decide), h1.wanted]
    dsimp only
    rw [if_neg (by decide), if_pos rfl]
    unfold startEdge
    have ha : AD.get [("source", x.source), ("target", x.target)] "source" = .ok x.source := rfl
    have hb : AD.get [("source", x.source), ("target", x.target)] "target" = .ok x.target := rfl
    rw [ha, hb]
    dsimp only
    rw [h1.modGraph (g' := { g with edges := g.edges ++ [((x.source, x.target), [("label", .none)])] }) (by
      unfold addEdge
      rw [if_neg (by rw [hs', ht']; simp), hnone, set_new hn]; rfl)]
    dsimp only
    have h2 : At decls i B { g with edges := g.edges ++ [((x.source, x.target), [("label", .none)])] } ("edge" :: "graph" :: c)
        (some (.edge x.source x.target)) nd
        { s with ctx := "edge" :: s.ctx, buf := [], bank := B ++ [(i, some { g with edges := g.edges ++ [((x.source, x.target), [("label", .none)])] })],
                 comp := some (.edge x.source x.target) } :=
      ⟨h1.ready, h1.rep, h1.nodef, h1.new, h1.ctx, h1.graph, rfl, rfl, h1.node⟩
    exact ⟨_, h2.setDefaults (ws := ws) rfl (by simp), h2⟩
  obtain ⟨s2, e2, h3⟩ := At.edgeData (ws := ws) (sp := sp) hn w x.data hk [("label", .none)] h2
  obtain ⟨s3, e3, h4⟩ := h3.text (ws := ws) (sp := sp) w
  rw [e1]
  dsimp only
  unfold spaced
  rw [runAll_append, e2]
  dsimp only
  rw [runAll_text, e3]
  dsimp only
  unfold endElement
  rw [if_neg (by decide), h4.wanted]
  dsimp only
  rw [if_neg (by decide), if_neg (by decide), if_neg (by decide)]
  exact ⟨_, rfl, ⟨h4.ready, h4.rep, h4.nodef, h4.new, by show s3.ctx.tail = _; rw [h4.ctx]; rfl, h4.graph, h4.bank, h4.comp,
    h4.node⟩⟩

/-! ### The whole file -/

/-- Outside graphs, with bank `B`. -/
structure Top (decls : List Decl) (B : AD String (Option Gr)) (s : St) : Prop where
  ready : s.ready = true
  rep : Rep decls s
  nodef : NoDef s
  ctx : s.ctx = ["graphml"]
  graph : s.graph = none
  bank : s.bank = B

theorem Top.text (h : Top decls B s) (t : Text) : ∃ s', run ws sp (.text t) s = .ok s' ∧ Top decls B s' := by
  refine ⟨s, ?_, h⟩
  unfold run charData
  rw [wanted_none h.graph, if_pos h.ready]

theorem get?_map {α κ ν : Type} [DecidableEq κ] (l : List α) (key : α → κ) (f : α → ν) (h : (l.map key).Nodup) {x : α}
    (hx : x ∈ l) : AD.get? (l.map fun y => (key y, f y)) (key x) = some (f x) := by
  refine AD.get?_of_mem ?_ (List.mem_map.mpr ⟨x, hx, rfl⟩)
  unfold AD.WF AD.keys
  rw [List.map_map]
  exact h

theorem keys_map {α κ ν : Type} [DecidableEq κ] (l : List α) (key : α → κ) (f : α → ν) :
    AD.keys (l.map fun y => (key y, f y)) = l.map key := by
  unfold AD.keys
  rw [List.map_map]
  rfl

/-- A <graph> start. -/
theorem Top.startGraph (h : Top decls B s) (x : Graph) (hnew : x.id ∉ B.keys) :
    ∃ s1, startElement ws false "graph" [("id", x.id)] s = .ok s1 ∧
      At decls x.id B { id := x.id } ["graph", "graphml"] (some .graph) s.node s1 := by
  unfold startElement
  dsimp only
  rw [if_neg (by decide), if_neg (by decide), if_pos rfl]
  unfold Graphml.startGraph
  rw [if_pos (Or.inl rfl)]
  have hid : AD.get [("id", x.id)] "id" = .ok x.id := rfl
  rw [hid]
  dsimp only
  have h2 : At decls x.id B { id := x.id } ["graph", "graphml"] (some .graph) s.node
      { s with ctx := "graph" :: s.ctx, buf := [], graph := some x.id, bank := s.bank.set x.id (some { id := x.id }), comp := some .graph } :=
    ⟨h.ready, h.rep, h.nodef, hnew, by show "graph" :: s.ctx = _; rw [h.ctx], rfl, by
      show s.bank.set x.id _ = _; rw [h.bank, set_new hnew], rfl, rfl⟩
  exact ⟨_, h2.setDefaults (ws := ws) rfl (by simp), h2⟩

/-- The nodes of a graph. -/
theorem At.nodes (w : Text) (l : List Node) (nodeIds : (l.map Node.id).Nodup)
    (nodeKeys : ∀ n ∈ l, ∀ d ∈ n.data, (attrName decls "node" d.key).isSome)
    (nodeLabel : ∀ n ∈ l, ∃ t, lastText decls "node" "label" n.data = some t ∧ t ≠ [])
    (nodeTokens : ∀ n ∈ l, (lastText decls "node" "tokens" n.data).isSome) {g0 : Gr} (p2 : g0.nodes = [])
    (h2 : At decls i B g0 ["graph", "graphml"] cm nd s) :
    ∃ s', runAll ws sp ((l.map (Node.doc w)).flatMap fun d => [.text w, d]) s = .ok s' ∧ ∃ cm nd, At decls i B
      { g0 with nodes := l.map fun n => (some n.id, fill decls "node" nval bare n.data) } ["graph", "graphml"] cm nd s' := by
  exact runAll_each (ws := ws) (sp := sp) w (Node.doc w) l
    (fun done s => ∃ cm nd, At decls i B
      { g0 with nodes := done.map fun n => (some n.id, fill decls "node" nval bare n.data) } ["graph", "graphml"] cm nd s)
    (by
      rintro done s ⟨cm, nd, hI⟩
      obtain ⟨s', e, h'⟩ := hI.text (ws := ws) (sp := sp) w
      exact ⟨s', e, cm, nd, h'⟩)
    (by
      rintro done n rest s hl ⟨cm, nd, hI⟩
      have hmem : n ∈ l := by rw [hl]; simp
      have hfresh : some n.id ∉ AD.keys (done.map fun n : Node => (some n.id, fill decls "node" nval bare n.data)) := by
        rw [keys_map (key := fun n : Node => some n.id)]
        intro hc
        obtain ⟨m, hm, hme⟩ := List.mem_map.mp hc
        rw [hl, List.map_append, List.map_cons] at nodeIds
        have := (List.nodup_append.mp nodeIds).2.2 m.id (List.mem_map.mpr ⟨m, hm, rfl⟩) n.id (by simp)
        exact this (Option.some.inj hme)
      obtain ⟨s', e, h'⟩ := hI.nodeElem (ws := ws) (sp := sp) w n hfresh (nodeKeys n hmem) (nodeLabel n hmem) (nodeTokens n hmem)
      refine ⟨s', e, none, some none, ?_⟩
      rw [List.map_append]
      exact h')
    s ⟨cm, nd, by
      have : ({ g0 with nodes := ([] : List Node).map fun n => (some n.id, fill decls "node" nval bare n.data) } : Gr) = g0 := by
        cases g0
        simp only [List.map_nil] at p2 ⊢
        subst p2
        rfl
      rw [this]
      exact h2⟩

/-- The edges of a graph. -/
theorem At.edges (w : Text) (l : List Edge) (ids : List String) (N : AD (Option String) (AD String Val))
    (hN : ∀ i ∈ ids, some i ∈ N.keys)
    (edgeIds : (l.map fun e => (e.source, e.target)).Nodup)
    (ends : ∀ e ∈ l, e.source ∈ ids ∧ e.target ∈ ids)
    (edgeKeys : ∀ e ∈ l, ∀ d ∈ e.data, (attrName decls "edge" d.key).isSome) {g0 : Gr} (p3 : g0.edges = [])
    (h3 : At decls i B { g0 with nodes := N } ["graph", "graphml"] cm nd s) :
    ∃ s', runAll ws sp ((l.map (Edge.doc w)).flatMap fun d => [.text w, d]) s = .ok s' ∧ ∃ cm, At decls i B
      { g0 with nodes := N,
                edges := l.map fun e => ((e.source, e.target), fill decls "edge" (fun _ t => .str t) [("label", .none)] e.data) }
      ["graph", "graphml"] cm nd s' := by
  exact runAll_each (ws := ws) (sp := sp) w (Edge.doc w) l
    (fun done s => ∃ cm, At decls i B
      { g0 with nodes := N,
                edges := done.map fun e => ((e.source, e.target), fill decls "edge" (fun _ t => .str t) [("label", .none)] e.data) }
      ["graph", "graphml"] cm nd s)
    (by
      rintro done s ⟨cm, hI⟩
      obtain ⟨s', e, h'⟩ := hI.text (ws := ws) (sp := sp) w
      exact ⟨s', e, cm, h'⟩)
    (by
      rintro done a rest s hl ⟨cm, hI⟩
      have hmem : a ∈ l := by rw [hl]; simp
      have hfresh : (a.source, a.target) ∉ AD.keys (done.map fun e : Edge => ((e.source, e.target),
          fill decls "edge" (fun _ t => Val.str t) [("label", .none)] e.data)) := by
        rw [keys_map (key := fun e : Edge => (e.source, e.target))]
        intro hc
        obtain ⟨m, hm, hme⟩ := List.mem_map.mp hc
        rw [hl, List.map_append, List.map_cons] at edgeIds
        have := (List.nodup_append.mp edgeIds).2.2 (m.source, m.target) (List.mem_map.mpr ⟨m, hm, rfl⟩) (a.source, a.target) (by simp)
        exact this hme
      obtain ⟨s', e, h'⟩ := hI.edgeElem (ws := ws) (sp := sp) w a hfresh (hN _ (ends a hmem).1) (hN _ (ends a hmem).2) (edgeKeys a hmem)
      refine ⟨s', e, some (.edge a.source a.target), ?_⟩
      rw [List.map_append]
      exact h')
    s ⟨cm, by
      have : ({ g0 with nodes := N,
                        edges := ([] : List Edge).map fun e => ((e.source, e.target), fill decls "edge" (fun _ t => .str t) [("label", .none)] e.data) } : Gr) =
          { g0 with nodes := N } := by
        cases g0
        simp only [List.map_nil] at p3 ⊢
        subst p3
        rfl
      rw [this]
      exact h3⟩

theorem Top.graphElem (h : Top decls B s) (w : Text) (x : Graph) (hnew : x.id ∉ B.keys)
    (nodeIds : (x.nodes.map Node.id).Nodup)
    (edgeIds : (x.edges.map fun e => (e.source, e.target)).Nodup)
    (ends : ∀ e ∈ x.edges, e.source ∈ x.nodes.map Node.id ∧ e.target ∈ x.nodes.map Node.id)
    (graphKeys : ∀ d ∈ x.data, (attrName decls "graph" d.key).isSome)
    (nodeKeys : ∀ n ∈ x.nodes, ∀ d ∈ n.data, (attrName decls "node" d.key).isSome)
    (edgeKeys : ∀ e ∈ x.edges, ∀ d ∈ e.data, (attrName decls "edge" d.key).isSome)
    (graphTokens : (lastText decls "graph" "tokens" x.data).isSome)
    (nodeLabel : ∀ n ∈ x.nodes, ∃ t, lastText decls "node" "label" n.data = some t ∧ t ≠ [])
    (nodeTokens : ∀ n ∈ x.nodes, (lastText decls "node" "tokens" n.data).isSome) :
    ∃ s' r, run ws false (x.doc w) s = .ok s' ∧ Means ws decls x r ∧ Top decls (B ++ [(x.id, some r)]) s' := by
  unfold Graph.doc
  rw [run]
  obtain ⟨s1, e1, h1⟩ := h.startGraph (ws := ws) x hnew
  rw [e1]
  dsimp only
  unfold spaced
  rw [runAll_append, List.flatMap_append, List.flatMap_append, runAll_append, runAll_append]
  obtain ⟨s2, e2, h2⟩ := h1.graphData (ws := ws) (sp := false) w x.data graphKeys
  rw [e2]
  dsimp only
  obtain ⟨p1, p2, p3, p4, p5, p6⟩ := gfill_props (ws := ws) x.data graphKeys { id := x.id }
  generalize hg0 : gfill ws decls { id := x.id } x.data = g0 at *
  dsimp only at p1 p2 p3 p4 p5 p6
  obtain ⟨s3, e3, cm, nd, h3⟩ := h2.nodes (ws := ws) (sp := false) w x.nodes nodeIds nodeKeys nodeLabel nodeTokens p2
  rw [e3]
  dsimp only
  obtain ⟨s4, e4, cm', h4⟩ := At.edges (ws := ws) (sp := false) w x.edges (x.nodes.map Node.id) _ (by
      intro i hi
      rw [keys_map (key := fun n : Node => some n.id)]
      obtain ⟨n, hn, rfl⟩ := List.mem_map.mp hi
      exact List.mem_map.mpr ⟨n, hn, rfl⟩) edgeIds ends edgeKeys p3 h3
  rw [e4]
  dsimp only
  obtain ⟨s5, e5, h5⟩ := h4.text (ws := ws) (sp := false) w
  rw [runAll_text, e5]
  dsimp only
  obtain ⟨tk, htk⟩ := Option.isSome_iff_exists.mp graphTokens
  have htok : g0.tokens = some (DaesoGraph.splitWs ws tk) := by rw [p5, htk]; rfl
  unfold endElement
  rw [if_pos rfl]
  unfold endGraph
  rw [h5.wanted]
  dsimp only
  rw [h5.modGraph (g' := { g0 with nodes := x.nodes.map fun n => (some n.id, fill decls "node" nval bare n.data), edges := x.edges.map fun e => ((e.source, e.target), fill decls "edge" (fun _ t => .str t) [("label", .none)] e.data), root := g0.attrs.get? "graph" }) (by dsimp only; rw [htok])]
  dsimp only
  refine ⟨_, _, rfl, ?_, ⟨h5.ready, h5.rep, h5.nodef, by show s5.ctx.tail = _; rw [h5.ctx]; rfl, rfl, rfl⟩⟩
  have hattr : ∀ name, g0.attrs.get? name = graphValue decls x.data name := by
    intro name
    rw [p6]
    unfold graphValue
    by_cases hn : name = "tokens"
    · rw [if_pos hn, if_pos hn]; rfl
    · rw [if_neg hn, if_neg hn]
      show (Option.map Val.str _).or none = _
      rw [Option.or_none]
  refine ⟨p1, ?_, hattr, hattr "graph", ?_, ?_, ?_, ?_⟩
  · show g0.tokens = _
    rw [htok, htk]; rfl
  · exact keys_map x.nodes (fun n : Node => some n.id) _
  · intro n hn
    refine ⟨_, get?_map x.nodes (fun n : Node => some n.id) _ ?_ hn, ?_⟩
    · have := List.Nodup.map (f := (some : String → Option String)) (fun a b h => Option.some.inj h) nodeIds
      rwa [List.map_map] at this
    · intro name
      rw [fill_get _ _ _ _ _ (nodeKeys n hn)]
      unfold nodeValue
      cases lastText decls "node" name n.data with
      | some t => rfl
      | none =>
        dsimp only
        unfold bare
        rw [AD.get?_cons]
        by_cases h1 : name = "label"
        · subst h1; simp
        · rw [if_neg h1, if_neg (fun e => h1 e.symm), AD.get?_cons]
          by_cases h2 : name = "tokens"
          · subst h2; simp
          · rw [if_neg h2, if_neg (fun e => h2 e.symm)]; rfl
  · exact keys_map x.edges (fun e : Edge => (e.source, e.target)) _
  · intro e he
    refine ⟨_, get?_map x.edges (fun e : Edge => (e.source, e.target)) _ edgeIds he, ?_⟩
    intro name
    rw [fill_get _ _ _ _ _ (edgeKeys e he)]
    unfold edgeValue
    cases lastText decls "edge" name e.data with
    | some t => rfl
    | none =>
      dsimp only
      rw [AD.get?_cons]
      by_cases h1 : name = "label"
      · subst h1; simp
      · rw [if_neg h1, if_neg (fun e => h1 e.symm)]; rfl

theorem Top.decl {done : List Decl} (h : Top done B s) (d : Decl) (hk : d.kind.getD "all" ∈ ["graph", "node", "edge", "all"]) :
    ∃ s', run ws sp d.doc s = .ok s' ∧ Top (done ++ [d]) B s' ∧
      ∀ f, f ∉ ["graph", "node", "edge", "all"] → s'.keys.get? f = s.keys.get? f := by
  unfold Decl.doc
  rw [run]
  generalize ha : (([("id", d.id), ("attr.name", d.name)] ++ d.kind.toList.map (fun f => ("for", f)) : AD String String)) = attrs
  have a1 : AD.get attrs "attr.name" = .ok d.name := by rw [← ha]; rfl
  have a2 : AD.get attrs "id" = .ok d.id := by rw [← ha]; rfl
  have a3 : (AD.get? attrs "for").getD "all" = d.kind.getD "all" := by
    rw [← ha]
    cases d.kind with
    | none => rfl
    | some f => rfl
  obtain ⟨m, hm, hr⟩ := h.rep _ hk
  have e1 : startElement ws sp "key" attrs s = .ok
      { s with ctx := "key" :: s.ctx, buf := [], heap := s.heap ++ [{ name := d.name }], cur := some s.heap.length,
               keys := s.keys.set (d.kind.getD "all") (m.set d.id s.heap.length) } := by
    unfold startElement
    dsimp only
    rw [if_neg (by decide), if_pos rfl]
    unfold startKey
    rw [a1, a2, a3]
    dsimp only
    rw [if_neg (by simp [h.ready]), AD.get_eq hm]
  rw [e1]
  dsimp only
  rw [runAll_nil]
  dsimp only
  unfold endElement
  rw [if_neg (by decide)]
  have hw : wanted ⟨"key" :: s.ctx, [], s.ready, s.keys.set (d.kind.getD "all") (m.set d.id s.heap.length),
      s.heap ++ [{ name := d.name }], some s.heap.length, s.dataKey, s.graph, s.comp, s.node, s.bank⟩ = .ok false := by
    unfold wanted; rw [h.ready, h.graph]; rfl
  rw [hw]
  refine ⟨_, rfl, ⟨h.ready, ?_, ?_, h.ctx, h.graph, h.bank⟩, ?_⟩
  rotate_left 2
  · intro f hf
    show (s.keys.set (d.kind.getD "all") _).get? f = _
    exact AD.get?_set_ne _ _ (fun e => hf (e ▸ hk))
  · intro f hf
    obtain ⟨m', hm', hr'⟩ := h.rep f hf
    have old : ∀ k r, m'.get? k = some r → (s.heap ++ [({ name := d.name } : Key)])[r]? = s.heap[r]? := by
      intro k r hkr
      rw [List.getElem?_append_left ((hr' k).2 r hkr)]
    by_cases hfd : f = d.kind.getD "all"
    · have hmm : m' = m := by rw [hfd, hm] at hm'; exact (Option.some.inj hm').symm
      refine ⟨m.set d.id s.heap.length, by show (s.keys.set _ _).get? f = _; rw [hfd, AD.get?_set_self], ?_⟩
      intro k
      show ((m.set d.id s.heap.length).get? k).bind (fun r => ((s.heap ++ [({ name := d.name } : Key)])[r]?).map Key.name) = _ ∧
        ∀ r, (m.set d.id s.heap.length).get? k = some r → r < (s.heap ++ [({ name := d.name } : Key)]).length
      rw [AD.get?_set, named_snoc]
      by_cases hkd : k = d.id
      · rw [if_pos hkd, if_pos ⟨hkd.symm, hfd.symm⟩]
        refine ⟨by simp, ?_⟩
        intro r hrr
        injection hrr with hrr
        subst hrr
        simp
      · rw [if_neg hkd, if_neg (fun e => hkd e.1.symm)]
        subst hmm
        rw [← (hr' k).1]
        constructor
        · cases hq : m'.get? k with
          | none => rfl
          | some r =>
            show Option.map _ _ = Option.map _ _
            rw [old k r hq]
        · intro r hq
          have := (hr' k).2 r hq
          simp; omega
    · refine ⟨m', by show (s.keys.set _ _).get? f = _; rw [AD.get?_set_ne _ _ hfd, hm'], ?_⟩
      intro k
      show (m'.get? k).bind (fun r => ((s.heap ++ [({ name := d.name } : Key)])[r]?).map Key.name) = _ ∧
        ∀ r, m'.get? k = some r → r < (s.heap ++ [({ name := d.name } : Key)]).length
      rw [named_snoc, if_neg (fun e => hfd e.2.symm), ← (hr' k).1]
      constructor
      · cases hq : m'.get? k with
        | none => rfl
        | some r =>
          show Option.map _ _ = Option.map _ _
          rw [old k r hq]
      · intro r hq
        have := (hr' k).2 r hq
        simp; omega
  · intro k hk
    rcases List.mem_append.mp hk with hk | hk
    · exact h.nodef k hk
    · simp at hk; subst hk; rfl

theorem file_run (ws : Char → Bool) (w : Text) (f : File) (hv : Valid f) :
    ∃ bank, load ws (f.doc w) = .ok bank ∧ List.Forall₂ (fun g e => e.1 = g.id ∧ ∃ r, e.2 = some r ∧ Means ws f.decls g r)
      f.graphs bank := by
  unfold load parseFile File.doc
  rw [run]
  have e0 : startElement ws false "graphml" [] { bank := [] } =
      .ok (startGraphml { bank := [], ctx := ["graphml"] }) := by
    unfold startElement; dsimp only; rw [if_pos rfl]
  rw [e0]
  dsimp only
  have h0 : Top [] [] (startGraphml { bank := [], ctx := ["graphml"] }) := by
    refine ⟨rfl, ?_, ?_, rfl, rfl, rfl⟩
    · intro f hf
      refine ⟨[], ?_, ?_⟩
      · simp only [List.mem_cons, List.not_mem_nil, or_false] at hf
        rcases hf with rfl | rfl | rfl | rfl <;> rfl
      · intro k
        exact ⟨rfl, by intro r hr; simp at hr⟩
    · intro k hk; simp [startGraphml] at hk
  unfold spaced
  rw [runAll_append, List.flatMap_append, runAll_append]
  obtain ⟨s1, e1, h1⟩ := runAll_each (ws := ws) (sp := false) w Decl.doc f.decls (fun done s => Top done [] s)
    (fun done s hI => hI.text w)
    (fun done x rest s hl hI => by
      obtain ⟨s', e, h', -⟩ := hI.decl (ws := ws) (sp := false) x (hv.kinds x (by rw [hl]; simp))
      exact ⟨s', e, h'⟩) _ h0
  rw [e1]
  dsimp only
  obtain ⟨s2, e2, B, h2, h2'⟩ := runAll_each (ws := ws) (sp := false) w (Graph.doc w) f.graphs
    (fun done s => ∃ B, Top f.decls B s ∧
      List.Forall₂ (fun g (e : String × Option Gr) => e.1 = g.id ∧ ∃ r, e.2 = some r ∧ Means ws f.decls g r) done B)
    (by
      rintro done s ⟨B, hI, hF⟩
      obtain ⟨s', e, h'⟩ := hI.text (ws := ws) (sp := false) w
      exact ⟨s', e, B, h', hF⟩)
    (by
      rintro done x rest s hl ⟨B, hI, hF⟩
      have hx : x ∈ f.graphs := by rw [hl]; simp
      have hkeys : B.keys = done.map Graph.id := by
        clear hI hl
        induction hF with
        | nil => rfl
        | cons hp _ ih =>
          show _ :: AD.keys _ = _
          rw [List.map_cons, ih, hp.1]
      have hfresh : x.id ∉ B.keys := by
        rw [hkeys]
        have := hv.graphIds
        rw [hl, List.map_append, List.map_cons] at this
        intro hc
        exact (List.nodup_append.mp this).2.2 x.id hc x.id (by simp) rfl
      obtain ⟨s', r, e, hm, ht⟩ := hI.graphElem (ws := ws) w x hfresh (hv.nodeIds x hx) (hv.edgeIds x hx) (hv.ends x hx)
        (hv.graphKeys x hx) (hv.nodeKeys x hx) (hv.edgeKeys x hx) (hv.graphTokens x hx) (hv.nodeLabel x hx) (hv.nodeTokens x hx)
      refine ⟨s', e, _, ht, ?_⟩
      exact List.rel_append (R := fun g (e : String × Option Gr) => e.1 = g.id ∧ ∃ r, e.2 = some r ∧ Means ws f.decls g r) hF
        (List.Forall₂.cons (a := x) (b := (x.id, some r)) ⟨rfl, r, rfl, hm⟩ List.Forall₂.nil))
    s1 ⟨[], h1, List.Forall₂.nil⟩
  rw [e2]
  dsimp only
  obtain ⟨s3, e3, h3⟩ := h2.text (ws := ws) (sp := false) w
  rw [runAll_text, e3]
  dsimp only
  have e4 : endElement ws "graphml" s3 = .ok { s3 with ctx := s3.ctx.tail } := by
    unfold endElement
    rw [if_neg (by decide), wanted_none h3.graph, if_pos h3.ready]
  rw [e4]
  dsimp only
  rw [if_neg (by simp)]
  exact ⟨_, rfl, h3.bank ▸ h2'⟩

end Verif.Graphml
