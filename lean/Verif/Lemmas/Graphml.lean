import Verif.Spec.Graphml
import Verif.Lemmas.Base

/-! Lemmas about the GraphML parser. -/
set_option linter.unusedSectionVars false
namespace Verif.Graphml
open Verif Verif.Spec.Graphml

/-- No key has a default value. -/
def NoDef (s : St) : Prop := ∀ k ∈ s.heap, k.default = none

/-- The lookups of `_set_defaults`. -/
def dcheck (s : St) : Py Unit :=
  match s.ctx with
  | [] => .error .indexError
  | keyFor :: _ =>
    if ¬ s.ready then .error .attributeError
    else match s.keys.get "all" with
      | .error e => .error e
      | .ok _ => match s.keys.get keyFor with
        | .error e => .error e
        | .ok _ => .ok ()

theorem forIn_id {α σ : Type} (l : List α) (s : σ) (f : α → σ → Py σ) (h : ∀ x ∈ l, f x s = .ok s) :
    Py.forIn l s f = .ok s := by
  induction l with
  | nil => rfl
  | cons x l ih =>
    unfold Py.forIn
    rw [h x (by simp)]
    exact ih fun y hy => h y (by simp [hy])

/-- Without default values nothing is set. -/
theorem setDefaults_none (ws : Char → Bool) (s : St) (h : NoDef s) :
    setDefaults ws s = match dcheck s with
      | .error e => .error e
      | .ok _ => .ok s := by
  unfold setDefaults dcheck
  cases s.ctx with
  | nil => rfl
  | cons f r =>
    dsimp only
    by_cases hr : ¬ s.ready
    · rw [if_pos hr, if_pos hr]
    · rw [if_neg hr, if_neg hr]
      cases s.keys.get "all" with
      | error e => rfl
      | ok a =>
        dsimp only
        cases s.keys.get f with
        | error e => rfl
        | ok b =>
          dsimp only
          refine forIn_id _ _ _ ?_
          intro x _
          have : (s.heap[x]?).bind (fun k => k.default.map fun d => (k.name, d)) = none := by
            cases hx : s.heap[x]? with
            | none => rfl
            | some k =>
              have := h k (List.mem_of_getElem? hx)
              simp [this]
          rw [this]

theorem setDefaults_ok {ws : Char → Bool} {s s' : St} (h : NoDef s) (e : setDefaults ws s = .ok s') :
    s' = s ∧ dcheck s = .ok () := by
  rw [setDefaults_none ws s h] at e
  cases hd : dcheck s with
  | error x => rw [hd] at e; simp at e
  | ok u => rw [hd] at e; injection e with e; exact ⟨e.symm, rfl⟩

/-- Only the graph under construction, the current component and the text differ. -/
structure Only (i : String) (a b : St) : Prop where
  ctx : b.ctx = a.ctx
  ready : b.ready = a.ready
  keys : b.keys = a.keys
  heap : b.heap = a.heap
  cur : b.cur = a.cur
  graph : b.graph = a.graph
  bank : ∀ j, j ≠ i → b.bank.get? j = a.bank.get? j

theorem Only.refl (i : String) (a : St) : Only i a a := ⟨rfl, rfl, rfl, rfl, rfl, rfl, fun _ _ => rfl⟩

theorem Only.trans {i : String} {a b c : St} (h1 : Only i a b) (h2 : Only i b c) : Only i a c :=
  ⟨h2.ctx.trans h1.ctx, h2.ready.trans h1.ready, h2.keys.trans h1.keys, h2.heap.trans h1.heap, h2.cur.trans h1.cur,
    h2.graph.trans h1.graph, fun j hj => (h2.bank j hj).trans (h1.bank j hj)⟩

theorem modGraph_only {i : String} {s s' : St} {f : Gr → Py Gr} (hg : s.graph = some i) (h : modGraph s f = .ok s') :
    Only i s s' := by
  unfold modGraph at h
  rw [hg] at h
  dsimp only at h
  split at h
  · split at h
    · simp at h
    · injection h with h
      subst h
      exact ⟨rfl, rfl, rfl, rfl, rfl, hg.symm, fun j hj => AD.get?_set_ne _ _ hj⟩
  · simp at h

theorem setAttr_only {i : String} {s s' : St} {n : String} {v : Val} (hg : s.graph = some i)
    (h : setAttr s n v = .ok s') : Only i s s' := by
  unfold setAttr at h
  split at h
  · simp at h
  all_goals exact modGraph_only hg h

theorem store_only {ws : Char → Bool} {i : String} {s s' : St} {f : Option String} {n : String} {v : Text}
    (hg : s.graph = some i) (h : store ws s f n v = .ok s') : Only i s s' := by
  unfold store at h
  split at h
  · exact modGraph_only hg h
  · split at h
    · split at h
      · simp at h
      · exact modGraph_only hg h
    · exact setAttr_only hg h

/-! ### Simulation -/

/-- No such element since the last graph was opened. -/
def Since (tag : String) (ctx : List String) : Prop := tag ∈ ctx.takeWhile (fun t => t ≠ "graph")

/-- The banks agree on the wanted ids. -/
def Banks (ids : List String) (F S : St) : Prop :=
  S.bank.keys = ids ∧ ∀ i ∈ ids, S.bank.get? i = some ((F.bank.get? i).getD none)

/-- What the two runs always share. -/
structure Shared (ids : List String) (F S : St) : Prop where
  ctx : S.ctx = F.ctx
  ready : S.ready = F.ready
  keys : S.keys = F.keys
  heap : S.heap = F.heap
  cur : S.cur = F.cur
  nodef : NoDef F
  banks : Banks ids F S

/-- Inside a wanted graph; the current node and the data key agree under conditions. -/
structure Part (ids : List String) (i : String) (pn pd : Prop) (F S : St) : Prop where
  shared : Shared ids F S
  mem : i ∈ ids
  fgraph : F.graph = some i
  sgraph : S.graph = some i
  fbank : ∃ g, F.bank.get? i = some (some g)
  comp : S.comp = F.comp
  buf : S.buf = F.buf
  node : pn → S.node = F.node
  dataKey : pd → S.dataKey = F.dataKey

/-- Inside a wanted graph. -/
abbrev Both (ids : List String) (i : String) (F S : St) : Prop :=
  Part ids i (Since "node" F.ctx) (Since "data" F.ctx) F S

/-- Inside a graph that only the full run wants. -/
structure Skip (ids : List String) (i : String) (F S : St) : Prop where
  shared : Shared ids F S
  mem : i ∉ ids
  fgraph : F.graph = some i
  sgraph : S.graph = none

/-- Outside graphs. -/
structure Out (ids : List String) (F S : St) : Prop where
  shared : Shared ids F S
  fgraph : F.graph = none
  sgraph : S.graph = none

theorem Banks.only {ids : List String} {i : String} {F F' S : St} (h : Banks ids F S) (hi : i ∉ ids) (ho : Only i F F') :
    Banks ids F' S := by
  refine ⟨h.1, fun j hj => ?_⟩
  rw [h.2 j hj, ho.bank j fun e => hi (e ▸ hj)]

theorem Skip.only {ids : List String} {i : String} {F F' S : St} (h : Skip ids i F S) (ho : Only i F F') :
    Skip ids i F' S := by
  refine ⟨⟨?_, ?_, ?_, ?_, ?_, ?_, h.shared.banks.only h.mem ho⟩, h.mem, ho.graph.trans h.fgraph, h.sgraph⟩
  · rw [ho.ctx]; exact h.shared.ctx
  · rw [ho.ready]; exact h.shared.ready
  · rw [ho.keys]; exact h.shared.keys
  · rw [ho.heap]; exact h.shared.heap
  · rw [ho.cur]; exact h.shared.cur
  · unfold NoDef; rw [ho.heap]; exact h.shared.nodef

/-! ### Inside an unwanted graph -/

theorem startKey_shared {ids : List String} {attrs : AD String String} {F F' S : St} (h : Shared ids F S)
    (e : startKey attrs F = .ok F') :
    ∃ S', startKey attrs S = .ok S' ∧ Shared ids F' S' ∧ F'.ctx = F.ctx ∧ F'.graph = F.graph ∧ S'.graph = S.graph ∧
      F'.comp = F.comp ∧ S'.comp = S.comp ∧ F'.buf = F.buf ∧ S'.buf = S.buf ∧ F'.node = F.node ∧ S'.node = S.node ∧
      F'.dataKey = F.dataKey ∧ S'.dataKey = S.dataKey ∧ F'.bank = F.bank := by
  unfold startKey at e ⊢
  rw [h.ready, h.keys, h.heap]
  cases ha : attrs.get "attr.name" with
  | error x => rw [ha] at e; simp at e
  | ok name =>
    rw [ha] at e
    dsimp only at e ⊢
    by_cases hr : ¬ F.ready
    · rw [if_pos hr] at e; simp at e
    · rw [if_neg hr] at e ⊢
      cases hk : F.keys.get ((attrs.get? "for").getD "all") with
      | error x => rw [hk] at e; simp at e
      | ok m =>
        rw [hk] at e
        dsimp only at e ⊢
        cases hi : attrs.get "id" with
        | error x => rw [hi] at e; simp at e
        | ok i =>
          rw [hi] at e
          dsimp only at e ⊢
          injection e with e
          subst e
          refine ⟨_, rfl, ⟨h.ctx, rfl, rfl, rfl, rfl, ?_, h.banks⟩, rfl, rfl, rfl, rfl, rfl, rfl, rfl, rfl, rfl, rfl, rfl,
            rfl⟩
          intro k hk
          rcases List.mem_append.mp hk with hk | hk
          · exact h.nodef k hk
          · simp at hk; subst hk; rfl

theorem Shared.open {ids : List String} {F S : St} (h : Shared ids F S) (tag : String) :
    Shared ids { F with ctx := tag :: F.ctx, buf := [] } { S with ctx := tag :: S.ctx, buf := [] } :=
  ⟨by show tag :: S.ctx = tag :: F.ctx; rw [h.ctx], h.ready, h.keys, h.heap, h.cur, h.nodef, h.banks⟩

theorem Shared.close {ids : List String} {F S : St} (h : Shared ids F S) :
    Shared ids { F with ctx := F.ctx.tail } { S with ctx := S.ctx.tail } :=
  ⟨by show S.ctx.tail = F.ctx.tail; rw [h.ctx], h.ready, h.keys, h.heap, h.cur, h.nodef, h.banks⟩

theorem wanted_some {s : St} {i : String} (h : s.graph = some i) :
    wanted s = if s.ready then .ok true else .error .attributeError := by unfold wanted; rw [h]; rfl

theorem wanted_none {s : St} (h : s.graph = none) :
    wanted s = if s.ready then .ok false else .error .attributeError := by unfold wanted; rw [h]; rfl

theorem startNode_only {ws : Char → Bool} {i : String} {attrs : AD String String} {s s' : St} (hg : s.graph = some i)
    (hn : NoDef s) (h : startNode ws attrs s = .ok s') : Only i s s' := by
  unfold startNode at h
  split at h
  · simp at h
  · next t ht =>
    have h1 := modGraph_only hg ht
    split at h
    · simp at h
    · next u hu =>
      injection h with h
      subst h
      have hn' : NoDef { t with comp := some (.node (attrs.get? "id")) } := by
        intro k hk; exact hn k (h1.heap ▸ hk)
      obtain ⟨h2, _⟩ := setDefaults_ok hn' hu
      subst h2
      exact ⟨h1.ctx, h1.ready, h1.keys, h1.heap, h1.cur, h1.graph, h1.bank⟩

theorem startEdge_only {ws : Char → Bool} {i : String} {attrs : AD String String} {s s' : St} (hg : s.graph = some i)
    (hn : NoDef s) (h : startEdge ws attrs s = .ok s') : Only i s s' := by
  unfold startEdge at h
  split at h
  · simp at h
  · split at h
    · simp at h
    · split at h
      · simp at h
      · next t ht =>
        have h1 := modGraph_only hg ht
        have hn' : ∀ c, NoDef { t with comp := c } := fun c k hk => hn k (h1.heap ▸ hk)
        obtain ⟨h2, _⟩ := setDefaults_ok (hn' _) h
        subst h2
        exact ⟨h1.ctx, h1.ready, h1.keys, h1.heap, h1.cur, h1.graph, h1.bank⟩

theorem startData_only {i : String} {attrs : AD String String} {s s' : St} (h : startData attrs s = .ok s') :
    Only i s s' := by
  unfold startData at h
  split at h
  · simp at h
  · injection h with h
    subst h
    exact ⟨rfl, rfl, rfl, rfl, rfl, rfl, fun _ _ => rfl⟩

theorem skip_start {ws : Char → Bool} {ids : List String} {i tag : String} {attrs : AD String String} {F F' S : St}
    (h : Skip ids i F S) (h1 : tag ≠ "graph") (h2 : tag ≠ "graphml")
    (e : startElement ws false tag attrs F = .ok F') :
    ∃ S', startElement ws true tag attrs S = .ok S' ∧ Skip ids i F' S' ∧ F'.ctx = tag :: F.ctx := by
  unfold startElement at e ⊢
  dsimp only at e ⊢
  rw [if_neg h2] at e ⊢
  have ho : Skip ids i { F with ctx := tag :: F.ctx, buf := [] } { S with ctx := tag :: S.ctx, buf := [] } :=
    ⟨h.shared.open tag, h.mem, h.fgraph, h.sgraph⟩
  by_cases hk : tag = "key"
  · rw [if_pos hk] at e ⊢
    obtain ⟨S', hS, hsh, hc, hg, hg', -⟩ := startKey_shared ho.shared e
    exact ⟨S', hS, ⟨hsh, h.mem, hg.trans h.fgraph, hg'.trans h.sgraph⟩, hc⟩
  · rw [if_neg hk, if_neg h1] at e ⊢
    rw [wanted_some ho.fgraph] at e
    by_cases hr : F.ready = true
    · rw [if_pos (show St.ready { F with ctx := tag :: F.ctx, buf := [] } = true from hr)] at e
      dsimp only at e
      have hw : wanted { S with ctx := tag :: S.ctx, buf := [] } = .ok false := by
        rw [wanted_none ho.sgraph]; exact if_pos (ho.shared.ready.trans hr)
      rw [hw]
      dsimp only
      refine ⟨_, rfl, ?_⟩
      have key : Only i { F with ctx := tag :: F.ctx, buf := [] } F' := by
        split at e
        · exact startNode_only ho.fgraph ho.shared.nodef e
        · split at e
          · exact startEdge_only ho.fgraph ho.shared.nodef e
          · split at e
            · exact startData_only e
            · injection e with e
              exact e ▸ Only.refl _ _
      exact ⟨ho.only key, key.ctx⟩
    · simp [hr] at e

theorem endNode_only {i : String} {s s' : St} (h : endNode s = .ok s') : Only i s s' := by
  unfold endNode at h
  split at h
  · simp at h
  · split at h
    · simp at h
    · split at h
      · simp at h
      · split at h
        · simp at h
        · injection h with h
          subst h
          exact ⟨rfl, rfl, rfl, rfl, rfl, rfl, fun _ _ => rfl⟩

theorem endData_only {ws : Char → Bool} {i : String} {s s' : St} (hg : s.graph = some i) (h : endData ws s = .ok s') :
    Only i s s' := by
  unfold endData at h
  split at h
  · simp at h
  · split at h
    · simp at h
    · next t ht =>
      injection h with h
      subst h
      have h1 := store_only hg ht
      exact ⟨h1.ctx, h1.ready, h1.keys, h1.heap, h1.cur, h1.graph, h1.bank⟩

theorem skip_end {ws : Char → Bool} {ids : List String} {i tag : String} {F F' S : St}
    (h : Skip ids i F S) (h1 : tag ≠ "graph") (h2 : tag ≠ "default")
    (e : endElement ws tag F = .ok F') :
    ∃ S', endElement ws tag S = .ok S' ∧ Skip ids i F' S' ∧ F'.ctx = F.ctx.tail := by
  unfold endElement at e ⊢
  rw [if_neg h1] at e ⊢
  rw [wanted_some h.fgraph] at e
  rw [wanted_none h.sgraph, h.shared.ready]
  by_cases hr : F.ready = true
  · rw [if_pos hr] at e ⊢
    dsimp only at e ⊢
    refine ⟨_, rfl, ?_⟩
    split at e
    · simp at e
    · next t ht =>
      injection e with e
      subst e
      have key : Only i F t := by
        split at ht
        · exact endNode_only ht
        · split at ht
          · exact endData_only h.fgraph ht
          · injection ht with ht
            exact ht ▸ Only.refl _ _
      have hk := h.only key
      exact ⟨⟨hk.shared.close, hk.mem, hk.fgraph, hk.sgraph⟩, by show t.ctx.tail = _; rw [key.ctx]⟩
  · simp [hr] at e

theorem skip_char {ids : List String} {i : String} {t : Text} {F F' S : St} (h : Skip ids i F S)
    (e : charData t F = .ok F') : ∃ S', charData t S = .ok S' ∧ Skip ids i F' S' ∧ F'.ctx = F.ctx := by
  unfold charData at e ⊢
  rw [wanted_some h.fgraph] at e
  rw [wanted_none h.sgraph, h.shared.ready]
  by_cases hr : F.ready = true
  · rw [if_pos hr] at e ⊢
    dsimp only at e ⊢
    injection e with e
    subst e
    exact ⟨_, rfl, h.only ⟨rfl, rfl, rfl, rfl, rfl, rfl, fun _ _ => rfl⟩, rfl⟩
  · simp [hr] at e

mutual
theorem skip_run {ws : Char → Bool} {ids : List String} {i : String} : (d : Doc) → InGraph d → ∀ {F F' S : St},
    Skip ids i F S → run ws false d F = .ok F' →
    ∃ S', run ws true d S = .ok S' ∧ Skip ids i F' S' ∧ F'.ctx = F.ctx
  | .text t, _, F, F', S, h, e => by
    unfold run at e ⊢
    exact skip_char h e
  | .elem tag attrs content, hd, F, F', S, h, e => by
    obtain ⟨hd1, hd2, hd3, hd4⟩ := hd
    unfold run at e ⊢
    split at e
    · simp at e
    · next F1 e1 =>
      obtain ⟨S1, f1, h1, c1⟩ := skip_start h hd1 hd2 e1
      split at e
      · simp at e
      · next F2 e2 =>
        obtain ⟨S2, f2, h2, c2⟩ := skip_runAll content hd4 h1 e2
        obtain ⟨S3, f3, h3, c3⟩ := skip_end h2 hd1 hd3 e
        refine ⟨S3, ?_, h3, by rw [c3, c2, c1]; rfl⟩
        rw [f1]; dsimp only; rw [f2]; exact f3
theorem skip_runAll {ws : Char → Bool} {ids : List String} {i : String} : (ds : List Doc) → InGraphAll ds →
    ∀ {F F' S : St}, Skip ids i F S → runAll ws false ds F = .ok F' →
    ∃ S', runAll ws true ds S = .ok S' ∧ Skip ids i F' S' ∧ F'.ctx = F.ctx
  | [], _, F, F', S, h, e => by
    unfold runAll at e ⊢
    injection e with e
    exact ⟨S, rfl, e ▸ h, by rw [e]⟩
  | d :: ds, hd, F, F', S, h, e => by
    obtain ⟨hd1, hd2⟩ := hd
    unfold runAll at e ⊢
    split at e
    · simp at e
    · next F1 e1 =>
      obtain ⟨S1, f1, h1, c1⟩ := skip_run d hd1 h e1
      obtain ⟨S2, f2, h2, c2⟩ := skip_runAll ds hd2 h1 e
      refine ⟨S2, ?_, h2, c2.trans c1⟩
      rw [f1]; exact f2
end

/-! ### Inside a wanted graph -/

theorem Part.sbank {ids : List String} {i : String} {pn pd : Prop} {F S : St} (h : Part ids i pn pd F S) : S.bank.get? i = F.bank.get? i := by
  obtain ⟨g, hg⟩ := h.fbank
  rw [h.shared.banks.2 i h.mem, hg]; rfl

theorem both_modGraph {ids : List String} {i : String} {pn pd : Prop} {F F' S : St} {f : Gr → Py Gr} (h : Part ids i pn pd F S)
    (e : modGraph F f = .ok F') :
    ∃ S', modGraph S f = .ok S' ∧ Part ids i pn pd F' S' ∧ F'.ctx = F.ctx ∧ S'.node = S.node ∧ F'.node = F.node := by
  obtain ⟨g, hg⟩ := h.fbank
  unfold modGraph at e ⊢
  rw [h.fgraph] at e
  rw [h.sgraph]
  dsimp only at e ⊢
  rw [h.sbank]
  rw [hg] at e ⊢
  dsimp only at e ⊢
  cases hf : f g with
  | error x => rw [hf] at e; simp at e
  | ok g' =>
    rw [hf] at e
    dsimp only at e ⊢
    injection e with e
    subst e
    have hsh := h.shared
    have hk : i ∈ S.bank.keys := by rw [hsh.banks.1]; exact h.mem
    refine ⟨_, rfl, ⟨⟨hsh.ctx, hsh.ready, hsh.keys, hsh.heap, hsh.cur, hsh.nodef, ?_, ?_⟩, h.mem, rfl, rfl,
      ⟨g', AD.get?_set_self _ _ _⟩, h.comp, h.buf, h.node, h.dataKey⟩, rfl, rfl, rfl⟩
    · show (S.bank.set i (some g')).keys = ids
      rw [AD.keys_set, if_pos hk]
      exact hsh.banks.1
    · intro j hj
      show (S.bank.set i (some g')).get? j = some (((F.bank.set i (some g')).get? j).getD none)
      by_cases hji : j = i
      · subst hji; rw [AD.get?_set_self, AD.get?_set_self]; rfl
      · rw [AD.get?_set_ne _ _ hji, AD.get?_set_ne _ _ hji]; exact hsh.banks.2 j hj

theorem both_setAttr {ids : List String} {i : String} {pn pd : Prop} {F F' S : St} {n : String} {v : Val} (h : Part ids i pn pd F S)
    (e : setAttr F n v = .ok F') :
    ∃ S', setAttr S n v = .ok S' ∧ Part ids i pn pd F' S' ∧ F'.ctx = F.ctx := by
  unfold setAttr at e ⊢
  rw [h.comp]
  split at e
  · simp at e
  all_goals
    obtain ⟨S', h1, h2, h3, -⟩ := both_modGraph h e
    exact ⟨S', h1, h2, h3⟩

theorem both_store {ws : Char → Bool} {ids : List String} {i : String} {pn pd : Prop} {F F' S : St} {f : Option String} {n : String}
    {v : Text} (h : Part ids i pn pd F S) (hn : f = some "node" → pn) (e : store ws F f n v = .ok F') :
    ∃ S', store ws S f n v = .ok S' ∧ Part ids i pn pd F' S' ∧ F'.ctx = F.ctx := by
  unfold store at e ⊢
  split at e
  · next hc =>
    rw [if_pos hc]
    obtain ⟨S', h1, h2, h3, -⟩ := both_modGraph h e
    exact ⟨S', h1, h2, h3⟩
  · next hc =>
    rw [if_neg hc]
    split at e
    · next hc' =>
      rw [if_pos hc', h.node (hn hc'.2)]
      split at e
      · simp at e
      · obtain ⟨S', h1, h2, h3, -⟩ := both_modGraph h e
        exact ⟨S', h1, h2, h3⟩
    · next hc' =>
      rw [if_neg hc']
      exact both_setAttr h e

theorem dcheck_eq {F S : St} (h1 : S.ctx = F.ctx) (h2 : S.ready = F.ready) (h3 : S.keys = F.keys) : dcheck S = dcheck F := by
  unfold dcheck; rw [h1, h2, h3]

theorem both_setDefaults {ws : Char → Bool} {ids : List String} {i : String} {pn pd : Prop} {F F' S : St} (h : Part ids i pn pd F S)
    (e : setDefaults ws F = .ok F') : setDefaults ws S = .ok S ∧ F' = F := by
  obtain ⟨h1, h2⟩ := setDefaults_ok h.shared.nodef e
  have hn : NoDef S := by intro k hk; exact h.shared.nodef k (h.shared.heap ▸ hk)
  rw [setDefaults_none ws S hn, dcheck_eq h.shared.ctx h.shared.ready h.shared.keys, h2]
  exact ⟨rfl, h1⟩

theorem Since.cons {tag t : String} {c : List String} (h : Since tag (t :: c)) (hne : tag ≠ t) : Since tag c := by
  unfold Since at h ⊢
  rw [List.takeWhile_cons] at h
  split at h
  · rcases List.mem_cons.mp h with h | h
    · exact absurd h hne
    · exact h
  · simp at h

theorem Since.tail {tag t : String} {c : List String} (ht : t ≠ "graph") (h : Since tag c) : Since tag (t :: c) := by
  unfold Since at h ⊢
  rw [List.takeWhile_cons, if_pos (by simpa using ht)]
  exact List.mem_cons_of_mem _ h

theorem Since.head {t : String} {c : List String} (ht : t ≠ "graph") : Since t (t :: c) := by
  unfold Since
  rw [List.takeWhile_cons, if_pos (by simpa using ht)]
  simp

theorem both_start {ws : Char → Bool} {ids : List String} {i tag : String} {attrs : AD String String} {F F' S : St}
    (h : Both ids i F S) (h1 : tag ≠ "graph") (h2 : tag ≠ "graphml")
    (e : startElement ws false tag attrs F = .ok F') :
    ∃ S', startElement ws true tag attrs S = .ok S' ∧ Both ids i F' S' ∧ F'.ctx = tag :: F.ctx := by
  unfold startElement at e ⊢
  dsimp only at e ⊢
  rw [if_neg h2] at e ⊢
  by_cases hk : tag = "key"
  · rw [if_pos hk] at e ⊢
    obtain ⟨S', hS, hsh, hc, hg, hg', hc1, hc2, hb1, hb2, hn1, hn2, hd1, hd2, hbk⟩ := startKey_shared (h.shared.open tag) e
    refine ⟨S', hS, ⟨hsh, h.mem, hg.trans h.fgraph, hg'.trans h.sgraph, by rw [hbk]; exact h.fbank,
      hc2.trans (h.comp.trans hc1.symm), hb2.trans hb1.symm, ?_, ?_⟩, hc⟩
    · intro hs
      rw [hc] at hs
      have := h.node (hs.cons (by rw [hk]; decide))
      exact hn2.trans (this.trans hn1.symm)
    · intro hs
      rw [hc] at hs
      have := h.dataKey (hs.cons (by rw [hk]; decide))
      exact hd2.trans (this.trans hd1.symm)
  · rw [if_neg hk, if_neg h1] at e ⊢
    have hwF := wanted_some (s := { F with ctx := tag :: F.ctx, buf := [] }) h.fgraph
    have hwS := wanted_some (s := { S with ctx := tag :: S.ctx, buf := [] }) h.sgraph
    rw [hwF] at e
    rw [hwS]
    by_cases hr : F.ready = true
    · have hr' : S.ready = true := h.shared.ready.trans hr
      rw [if_pos (show St.ready { F with ctx := tag :: F.ctx, buf := [] } = true from hr)] at e
      rw [if_pos (show St.ready { S with ctx := tag :: S.ctx, buf := [] } = true from hr')]
      dsimp only at e ⊢
      have hb : Part ids i (tag ≠ "node" ∧ Since "node" F.ctx) (tag ≠ "data" ∧ Since "data" F.ctx)
          { F with ctx := tag :: F.ctx, buf := [] } { S with ctx := tag :: S.ctx, buf := [] } :=
        ⟨h.shared.open tag, h.mem, h.fgraph, h.sgraph, h.fbank, h.comp, rfl, fun hs => h.node hs.2,
          fun hs => h.dataKey hs.2⟩
      have up : ∀ {A B : St}, A.ctx = tag :: F.ctx → tag ≠ "node" → tag ≠ "data" →
          Part ids i (tag ≠ "node" ∧ Since "node" F.ctx) (tag ≠ "data" ∧ Since "data" F.ctx) A B → Both ids i A B := by
        intro A B hc hn hd hp
        exact ⟨hp.shared, hp.mem, hp.fgraph, hp.sgraph, hp.fbank, hp.comp, hp.buf,
          fun hs => hp.node ⟨hn, (hc ▸ hs).cons (Ne.symm hn)⟩, fun hs => hp.dataKey ⟨hd, (hc ▸ hs).cons (Ne.symm hd)⟩⟩
      by_cases hn : tag = "node"
      · rw [if_pos hn] at e ⊢
        unfold startNode at e ⊢
        split at e
        · simp at e
        · next A hA =>
          obtain ⟨B, hB, hp, hc, -⟩ := both_modGraph hb hA
          rw [hB]
          dsimp only
          have hp' : Part ids i (tag ≠ "node" ∧ Since "node" F.ctx) (tag ≠ "data" ∧ Since "data" F.ctx)
              { A with comp := some (.node (attrs.get? "id")) } { B with comp := some (.node (attrs.get? "id")) } :=
            ⟨⟨hp.shared.ctx, hp.shared.ready, hp.shared.keys, hp.shared.heap, hp.shared.cur, hp.shared.nodef,
              hp.shared.banks⟩, hp.mem, hp.fgraph, hp.sgraph, hp.fbank, rfl, hp.buf, hp.node, hp.dataKey⟩
          split at e
          · simp at e
          · next C hC =>
            obtain ⟨h3, h4⟩ := both_setDefaults hp' hC
            rw [h3]
            dsimp only
            injection e with e
            subst h4
            subst e
            refine ⟨_, rfl, ⟨⟨hp.shared.ctx, hp.shared.ready, hp.shared.keys, hp.shared.heap, hp.shared.cur,
              hp.shared.nodef, hp.shared.banks⟩, hp.mem, hp.fgraph, hp.sgraph, hp.fbank, rfl, hp.buf, fun _ => rfl, ?_⟩, hc⟩
            intro hs
            have hs' : Since "data" (tag :: F.ctx) := by
              have h5 : Since "data" A.ctx := hs
              rw [hc] at h5; exact h5
            exact hp.dataKey ⟨by rw [hn]; decide, hs'.cons (by rw [hn]; decide)⟩
      · rw [if_neg hn] at e ⊢
        by_cases he : tag = "edge"
        · rw [if_pos he] at e ⊢
          unfold startEdge at e ⊢
          split at e
          · simp at e
          · split at e
            · simp at e
            · split at e
              · simp at e
              · next A hA =>
                obtain ⟨B, hB, hp, hc, -⟩ := both_modGraph hb hA
                rw [hB]
                dsimp only
                have hp' : ∀ c, Part ids i (tag ≠ "node" ∧ Since "node" F.ctx) (tag ≠ "data" ∧ Since "data" F.ctx)
                    { A with comp := c } { B with comp := c } := fun c =>
                  ⟨⟨hp.shared.ctx, hp.shared.ready, hp.shared.keys, hp.shared.heap, hp.shared.cur, hp.shared.nodef,
                    hp.shared.banks⟩, hp.mem, hp.fgraph, hp.sgraph, hp.fbank, rfl, hp.buf, hp.node, hp.dataKey⟩
                obtain ⟨h3, h4⟩ := both_setDefaults (hp' _) e
                subst h4
                exact ⟨_, h3, up hc hn (by rw [he]; decide) (hp' _), hc⟩
        · rw [if_neg he] at e ⊢
          by_cases hd : tag = "data"
          · rw [if_pos hd] at e ⊢
            unfold startData at e ⊢
            split at e
            · simp at e
            · injection e with e
              subst e
              refine ⟨_, rfl, ⟨⟨hb.shared.ctx, hb.shared.ready, hb.shared.keys, hb.shared.heap, hb.shared.cur,
                hb.shared.nodef, hb.shared.banks⟩, hb.mem, hb.fgraph, hb.sgraph, hb.fbank, hb.comp, rfl, ?_,
                fun _ => rfl⟩, rfl⟩
              intro hs
              have hs' : Since "node" (tag :: F.ctx) := hs
              exact hb.node ⟨hn, hs'.cons (Ne.symm hn)⟩
          · rw [if_neg hd] at e ⊢
            injection e with e
            subst e
            exact ⟨_, rfl, up rfl hn hd hb, rfl⟩
    · rw [if_neg (show ¬ St.ready { F with ctx := tag :: F.ctx, buf := [] } = true from hr)] at e
      simp at e

theorem getAttr_both {ids : List String} {i : String} {pn pd : Prop} {F S : St} (h : Part ids i pn pd F S) (n : String) :
    getAttr S n = getAttr F n := by
  unfold getAttr
  rw [h.comp, h.sgraph, h.fgraph]
  simp only [Option.bind_some, h.sbank]

theorem Part.drop {ids : List String} {i : String} {pn pd : Prop} {F S : St} (h : Part ids i pn pd F S) {t : String}
    {c : List String} (hc : F.ctx = t :: c) (ht : t ≠ "graph") (hn : Since "node" c → pn) (hd : Since "data" c → pd) :
    Both ids i { F with ctx := F.ctx.tail } { S with ctx := S.ctx.tail } :=
  ⟨h.shared.close, h.mem, h.fgraph, h.sgraph, h.fbank, h.comp, h.buf,
    fun hs => h.node (hn (by have : Since "node" F.ctx.tail := hs; rw [hc] at this; exact this)),
    fun hs => h.dataKey (hd (by have : Since "data" F.ctx.tail := hs; rw [hc] at this; exact this))⟩

theorem both_endNode {ids : List String} {i : String} {pn pd : Prop} {F F' S : St} (h : Part ids i pn pd F S)
    (e : endNode F = .ok F') : ∃ S', endNode S = .ok S' ∧ Part ids i True pd F' S' ∧ F'.ctx = F.ctx := by
  unfold endNode at e ⊢
  rw [getAttr_both h, getAttr_both h]
  split at e
  · simp at e
  · split at e
    · simp at e
    · next hl =>
      rw [if_neg hl]
      split at e
      · simp at e
      · split at e
        · simp at e
        · next ht =>
          rw [if_neg ht]
          injection e with e
          subst e
          exact ⟨_, rfl, ⟨⟨h.shared.ctx, h.shared.ready, h.shared.keys, h.shared.heap, h.shared.cur, h.shared.nodef,
            h.shared.banks⟩, h.mem, h.fgraph, h.sgraph, h.fbank, rfl, h.buf, fun _ => rfl, h.dataKey⟩, rfl⟩

theorem keyName_both {F S : St} (h1 : S.keys = F.keys) (h2 : S.dataKey = F.dataKey) (h3 : S.heap = F.heap) (f : String) :
    keyName S f = keyName F f := by unfold keyName; rw [h1, h2, h3]

theorem lookupName_both {F S : St} (h1 : S.keys = F.keys) (h2 : S.dataKey = F.dataKey) (h3 : S.heap = F.heap)
    (h4 : S.ctx = F.ctx) : lookupName S = lookupName F := by
  unfold lookupName; rw [h4]; simp only [keyName_both h1 h2 h3]

theorem both_endData {ws : Char → Bool} {ids : List String} {i : String} {c : List String} {F F' S : St}
    (h : Both ids i F S) (hc : F.ctx = "data" :: c) (e : endData ws F = .ok F') :
    ∃ S', endData ws S = .ok S' ∧ Part ids i (Since "node" F.ctx) True F' S' ∧ F'.ctx = F.ctx := by
  have hdk : S.dataKey = F.dataKey := h.dataKey (by rw [hc]; exact Since.head (by decide))
  unfold endData at e ⊢
  rw [lookupName_both h.shared.keys hdk h.shared.heap h.shared.ctx, h.shared.ctx, h.buf]
  split at e
  · simp at e
  · split at e
    · simp at e
    · next A hA =>
      injection e with e
      subst e
      obtain ⟨B, hB, hp, hc'⟩ := both_store h (by
        intro hf
        rw [hc] at hf ⊢
        refine Since.tail (by decide) ?_
        cases c with
        | nil => simp at hf
        | cons x c =>
          simp at hf
          subst hf
          exact Since.head (by decide)) hA
      rw [hB]
      exact ⟨_, rfl, ⟨⟨hp.shared.ctx, hp.shared.ready, hp.shared.keys, hp.shared.heap, hp.shared.cur, hp.shared.nodef,
            hp.shared.banks⟩, hp.mem, hp.fgraph, hp.sgraph, hp.fbank, hp.comp, hp.buf, hp.node, fun _ => rfl⟩, hc'⟩

theorem both_end {ws : Char → Bool} {ids : List String} {i tag : String} {c : List String} {F F' S : St}
    (h : Both ids i F S) (hc : F.ctx = tag :: c) (h1 : tag ≠ "graph") (h2 : tag ≠ "default")
    (e : endElement ws tag F = .ok F') :
    ∃ S', endElement ws tag S = .ok S' ∧ Both ids i F' S' ∧ F'.ctx = c := by
  unfold endElement at e ⊢
  rw [if_neg h1] at e ⊢
  rw [wanted_some h.fgraph] at e
  rw [wanted_some h.sgraph, h.shared.ready]
  by_cases hr : F.ready = true
  · rw [if_pos hr] at e ⊢
    dsimp only at e ⊢
    by_cases hn : tag.toList <:+: "node".toList
    · rw [if_pos hn] at e ⊢
      split at e
      · simp at e
      · next A hA =>
        obtain ⟨B, hB, hp, hc'⟩ := both_endNode h hA
        injection e with e
        subst e
        rw [hB]
        refine ⟨_, rfl, hp.drop (hc'.trans hc) h1 (fun _ => trivial) (fun hs => by rw [hc]; exact hs.tail h1), ?_⟩
        show A.ctx.tail = c
        rw [hc', hc]; rfl
    · rw [if_neg hn] at e ⊢
      by_cases hd : tag = "data"
      · rw [if_pos hd] at e ⊢
        split at e
        · simp at e
        · next A hA =>
          obtain ⟨B, hB, hp, hc'⟩ := both_endData h (hd ▸ hc) hA
          injection e with e
          subst e
          rw [hB]
          refine ⟨_, rfl, hp.drop (hc'.trans hc) h1 (fun hs => by rw [hc]; exact hs.tail h1) (fun _ => trivial), ?_⟩
          show A.ctx.tail = c
          rw [hc', hc]; rfl
      · rw [if_neg hd, if_neg h2] at e ⊢
        dsimp only at e ⊢
        injection e with e
        subst e
        refine ⟨_, rfl, h.drop hc h1 (fun hs => by rw [hc]; exact hs.tail h1) (fun hs => by rw [hc]; exact hs.tail h1), ?_⟩
        show F.ctx.tail = c
        rw [hc]; rfl
  · rw [if_neg hr] at e; simp at e

theorem both_char {ids : List String} {i : String} {t : Text} {F F' S : St} (h : Both ids i F S)
    (e : charData t F = .ok F') : ∃ S', charData t S = .ok S' ∧ Both ids i F' S' ∧ F'.ctx = F.ctx := by
  unfold charData at e ⊢
  rw [wanted_some h.fgraph] at e
  rw [wanted_some h.sgraph, h.shared.ready]
  by_cases hr : F.ready = true
  · rw [if_pos hr] at e ⊢
    dsimp only at e ⊢
    injection e with e
    subst e
    exact ⟨_, rfl, ⟨⟨h.shared.ctx, rfl, h.shared.keys, h.shared.heap, h.shared.cur, h.shared.nodef,
            h.shared.banks⟩, h.mem, h.fgraph, h.sgraph, h.fbank, h.comp, by show S.buf ++ t = F.buf ++ t; rw [h.buf],
            h.node, h.dataKey⟩, rfl⟩
  · rw [if_neg hr] at e; simp at e

mutual
theorem both_run {ws : Char → Bool} {ids : List String} {i : String} : (d : Doc) → InGraph d → ∀ {F F' S : St},
    Both ids i F S → run ws false d F = .ok F' →
    ∃ S', run ws true d S = .ok S' ∧ Both ids i F' S' ∧ F'.ctx = F.ctx
  | .text t, _, F, F', S, h, e => by
    unfold run at e ⊢
    exact both_char h e
  | .elem tag attrs content, hd, F, F', S, h, e => by
    obtain ⟨hd1, hd2, hd3, hd4⟩ := hd
    unfold run at e ⊢
    split at e
    · simp at e
    · next F1 e1 =>
      obtain ⟨S1, f1, h1, c1⟩ := both_start h hd1 hd2 e1
      split at e
      · simp at e
      · next F2 e2 =>
        obtain ⟨S2, f2, h2, c2⟩ := both_runAll content hd4 h1 e2
        obtain ⟨S3, f3, h3, c3⟩ := both_end h2 (c2.trans c1) hd1 hd3 e
        refine ⟨S3, ?_, h3, c3⟩
        rw [f1]; dsimp only; rw [f2]; exact f3
theorem both_runAll {ws : Char → Bool} {ids : List String} {i : String} : (ds : List Doc) → InGraphAll ds →
    ∀ {F F' S : St}, Both ids i F S → runAll ws false ds F = .ok F' →
    ∃ S', runAll ws true ds S = .ok S' ∧ Both ids i F' S' ∧ F'.ctx = F.ctx
  | [], _, F, F', S, h, e => by
    unfold runAll at e ⊢
    injection e with e
    exact ⟨S, rfl, e ▸ h, by rw [e]⟩
  | d :: ds, hd, F, F', S, h, e => by
    obtain ⟨hd1, hd2⟩ := hd
    unfold runAll at e ⊢
    split at e
    · simp at e
    · next F1 e1 =>
      obtain ⟨S1, f1, h1, c1⟩ := both_run d hd1 h e1
      obtain ⟨S2, f2, h2, c2⟩ := both_runAll ds hd2 h1 e
      refine ⟨S2, ?_, h2, c2.trans c1⟩
      rw [f1]; exact f2
end

/-! ### Outside graphs -/

theorem out_start {ws : Char → Bool} {ids : List String} {tag : String} {attrs : AD String String} {F F' S : St}
    (h : Out ids F S) (h1 : tag ≠ "graph") (h2 : tag ≠ "graphml")
    (e : startElement ws false tag attrs F = .ok F') :
    ∃ S', startElement ws true tag attrs S = .ok S' ∧ Out ids F' S' := by
  unfold startElement at e ⊢
  dsimp only at e ⊢
  rw [if_neg h2] at e ⊢
  by_cases hk : tag = "key"
  · rw [if_pos hk] at e ⊢
    obtain ⟨S', hS, hsh, hc, hg, hg', -⟩ := startKey_shared (h.shared.open tag) e
    exact ⟨S', hS, ⟨hsh, hg.trans h.fgraph, hg'.trans h.sgraph⟩⟩
  · rw [if_neg hk, if_neg h1] at e ⊢
    have hwF := wanted_none (s := { F with ctx := tag :: F.ctx, buf := [] }) h.fgraph
    have hwS := wanted_none (s := { S with ctx := tag :: S.ctx, buf := [] }) h.sgraph
    rw [hwF] at e
    rw [hwS]
    by_cases hr : F.ready = true
    · have hr' : S.ready = true := h.shared.ready.trans hr
      rw [if_pos (show St.ready { F with ctx := tag :: F.ctx, buf := [] } = true from hr)] at e
      rw [if_pos (show St.ready { S with ctx := tag :: S.ctx, buf := [] } = true from hr')]
      dsimp only at e ⊢
      injection e with e
      subst e
      exact ⟨_, rfl, h.shared.open tag, h.fgraph, h.sgraph⟩
    · rw [if_neg (show ¬ St.ready { F with ctx := tag :: F.ctx, buf := [] } = true from hr)] at e
      simp at e

theorem out_end {ws : Char → Bool} {ids : List String} {tag : String} {F F' S : St} (h : Out ids F S)
    (h1 : tag ≠ "graph") (e : endElement ws tag F = .ok F') : ∃ S', endElement ws tag S = .ok S' ∧ Out ids F' S' := by
  unfold endElement at e ⊢
  rw [if_neg h1] at e ⊢
  rw [wanted_none h.fgraph] at e
  rw [wanted_none h.sgraph, h.shared.ready]
  by_cases hr : F.ready = true
  · rw [if_pos hr] at e ⊢
    dsimp only at e ⊢
    injection e with e
    subst e
    exact ⟨_, rfl, h.shared.close, h.fgraph, h.sgraph⟩
  · rw [if_neg hr] at e; simp at e

theorem out_char {ids : List String} {t : Text} {F F' S : St} (h : Out ids F S)
    (e : charData t F = .ok F') : ∃ S', charData t S = .ok S' ∧ Out ids F' S' := by
  unfold charData at e ⊢
  rw [wanted_none h.fgraph] at e
  rw [wanted_none h.sgraph, h.shared.ready]
  by_cases hr : F.ready = true
  · rw [if_pos hr] at e ⊢
    dsimp only at e ⊢
    injection e with e
    exact ⟨_, rfl, e ▸ h⟩
  · rw [if_neg hr] at e; simp at e

theorem out_graph {ws : Char → Bool} {ids : List String} {attrs : AD String String} {F F' S : St} (h : Out ids F S)
    (e : startElement ws false "graph" attrs F = .ok F') :
    ∃ S' i, startElement ws true "graph" attrs S = .ok S' ∧ (Both ids i F' S' ∨ Skip ids i F' S') := by
  have hred : ∀ (sp : Bool) (s : St), startElement ws sp "graph" attrs s =
      startGraph ws sp attrs { s with ctx := "graph" :: s.ctx, buf := [] } := by intro sp s; rfl
  rw [hred] at e ⊢
  have ho := h.shared.open "graph"
  unfold startGraph at e ⊢
  rw [if_pos (Or.inl rfl)] at e
  dsimp only at e
  cases hi : attrs.get "id" with
  | error x => rw [hi] at e; simp at e
  | ok i =>
    have hi' : attrs.get? "id" = some i := by
      unfold AD.get at hi
      cases hq : attrs.get? "id" with
      | none => rw [hq] at hi; simp at hi
      | some j => rw [hq] at hi; injection hi with hi; rw [hi]
    rw [hi] at e
    dsimp only at e
    have hd := setDefaults_ok (s := { F with ctx := "graph" :: F.ctx, buf := [], graph := some i, bank := F.bank.set i (some { id := i }), comp := some .graph }) ho.nodef e
    obtain ⟨hF, hdc⟩ := hd
    subst hF
    have hmem : (S.bank.has i = true) ↔ i ∈ ids := by
      rw [← h.shared.banks.1, AD.mem_keys_iff]; rfl
    by_cases hm : i ∈ ids
    · rw [if_pos (Or.inr (by rw [hi']; exact hmem.mpr hm))]
      dsimp only
      have hb : Both ids i
          { F with ctx := "graph" :: F.ctx, buf := [], graph := some i, bank := F.bank.set i (some { id := i }), comp := some .graph }
          { S with ctx := "graph" :: S.ctx, buf := [], graph := some i, bank := S.bank.set i (some { id := i }), comp := some .graph } := by
        refine ⟨⟨ho.ctx, ho.ready, ho.keys, ho.heap, ho.cur, ho.nodef, ?_, ?_⟩, hm, rfl, rfl, ⟨_, AD.get?_set_self _ _ _⟩,
          rfl, rfl, ?_, ?_⟩
        · show (S.bank.set i _).keys = ids
          rw [AD.keys_set, if_pos (by rw [h.shared.banks.1]; exact hm)]
          exact h.shared.banks.1
        · intro j hj
          show (S.bank.set i (some { id := i })).get? j = some (((F.bank.set i (some { id := i })).get? j).getD none)
          by_cases hji : j = i
          · subst hji; rw [AD.get?_set_self, AD.get?_set_self]; rfl
          · rw [AD.get?_set_ne _ _ hji, AD.get?_set_ne _ _ hji]; exact h.shared.banks.2 j hj
        · intro hs; unfold Since at hs; simp at hs
        · intro hs; unfold Since at hs; simp at hs
      have := both_setDefaults hb e
      exact ⟨_, i, this.1, Or.inl hb⟩
    · rw [if_neg (by
        rintro (hc | hc)
        · simp at hc
        · rw [hi'] at hc; exact hm (hmem.mp hc))]
      refine ⟨_, i, rfl, Or.inr ⟨⟨ho.ctx, ho.ready, ho.keys, ho.heap, ho.cur, ho.nodef, h.shared.banks.1, ?_⟩, hm, rfl,
        h.sgraph⟩⟩
      intro j hj
      show S.bank.get? j = some (((F.bank.set i (some { id := i })).get? j).getD none)
      rw [AD.get?_set_ne _ _ (fun hji : j = i => hm (hji ▸ hj))]
      exact h.shared.banks.2 j hj

theorem end_graph {ws : Char → Bool} {ids : List String} {i : String} {F F' S : St}
    (h : Both ids i F S ∨ Skip ids i F S) (e : endElement ws "graph" F = .ok F') :
    ∃ S', endElement ws "graph" S = .ok S' ∧ Out ids F' S' := by
  unfold endElement at e ⊢
  rw [if_pos rfl] at e ⊢
  unfold endGraph at e ⊢
  have hfg : F.graph = some i := by rcases h with h | h <;> exact h.fgraph
  have hrd : S.ready = F.ready := by rcases h with h | h <;> exact h.shared.ready
  rw [wanted_some hfg] at e
  by_cases hr : F.ready = true
  · rw [if_pos hr] at e
    dsimp only at e
    split at e
    · simp at e
    · next t ht =>
      split at ht
      · simp at ht
      · next A hA =>
        injection ht with ht
        subst ht
        injection e with e
        subst e
        rcases h with h | h
        · obtain ⟨B, hB, hp, hc, -⟩ := both_modGraph h hA
          rw [wanted_some h.sgraph, hrd, if_pos hr]
          dsimp only
          rw [hB]
          exact ⟨_, rfl, ⟨by show B.ctx.tail = A.ctx.tail; rw [hp.shared.ctx], hp.shared.ready, hp.shared.keys,
            hp.shared.heap, hp.shared.cur, hp.shared.nodef, hp.shared.banks⟩, rfl, rfl⟩
        · rw [wanted_none h.sgraph, hrd, if_pos hr]
          dsimp only
          have hp := h.only (modGraph_only hfg hA)
          exact ⟨_, rfl, ⟨by show S.ctx.tail = A.ctx.tail; rw [hp.shared.ctx], hp.shared.ready, hp.shared.keys,
            hp.shared.heap, hp.shared.cur, hp.shared.nodef, hp.shared.banks⟩, rfl, h.sgraph⟩
  · rw [if_neg hr] at e; simp at e

mutual
theorem out_run {ws : Char → Bool} {ids : List String} : (d : Doc) → Flat d → ∀ {F F' S : St},
    Out ids F S → run ws false d F = .ok F' → ∃ S', run ws true d S = .ok S' ∧ Out ids F' S'
  | .text t, _, F, F', S, h, e => by
    unfold run at e ⊢
    exact out_char h e
  | .elem tag attrs content, hd, F, F', S, h, e => by
    obtain ⟨hd1, hd2, hd3⟩ := hd
    unfold run at e ⊢
    split at e
    · simp at e
    · next F1 e1 =>
      split at e
      · simp at e
      · next F2 e2 =>
        by_cases hg : tag = "graph"
        · subst hg
          obtain ⟨S1, i, f1, h1⟩ := out_graph h e1
          rw [f1]
          dsimp only
          rcases h1 with h1 | h1
          · obtain ⟨S2, f2, h2, -⟩ := both_runAll content (hd2 rfl) h1 e2
            rw [f2]
            exact end_graph (Or.inl h2) e
          · obtain ⟨S2, f2, h2, -⟩ := skip_runAll content (hd2 rfl) h1 e2
            rw [f2]
            exact end_graph (Or.inr h2) e
        · obtain ⟨S1, f1, h1⟩ := out_start h hg hd1 e1
          obtain ⟨S2, f2, h2⟩ := out_runAll content (hd3 hg) h1 e2
          rw [f1]; dsimp only; rw [f2]
          exact out_end h2 hg e
theorem out_runAll {ws : Char → Bool} {ids : List String} : (ds : List Doc) → FlatAll ds →
    ∀ {F F' S : St}, Out ids F S → runAll ws false ds F = .ok F' → ∃ S', runAll ws true ds S = .ok S' ∧ Out ids F' S'
  | [], _, F, F', S, h, e => by
    unfold runAll at e ⊢
    injection e with e
    exact ⟨S, rfl, e ▸ h⟩
  | d :: ds, hd, F, F', S, h, e => by
    obtain ⟨hd1, hd2⟩ := hd
    unfold runAll at e ⊢
    split at e
    · simp at e
    · next F1 e1 =>
      obtain ⟨S1, f1, h1⟩ := out_run d hd1 h e1
      obtain ⟨S2, f2, h2⟩ := out_runAll ds hd2 h1 e
      refine ⟨S2, ?_, h2⟩
      rw [f1]; exact f2
end

end Verif.Graphml
