import Verif.Lemmas.Graph

/-! Properties C27 and C58 (lib/daeso/graph/ograph.py). -/
namespace Verif.Props.Graph
open Verif Verif.Spec Verif.Graph

variable {κ ν : Type} [DecidableEq κ]

/-- The operations of a history on an ODiGraph. -/
inductive Op (κ ν : Type)
  | newDict (d : AD String ν)
  | addNode (n : κ) (attrDict : Option Nat) (attr : AD String ν)
  | addNodesFrom (ns : List κ) (attr : AD String ν)
  | addEdge (u v : κ) (attr : AD String ν)
  | addEdgesFrom (es : List (κ × κ × AD String ν)) (attr : AD String ν)
  | removeEdge (u v : κ)
  | removeNode (n : κ)
  | setEdgeAttr (u v : κ) (key : String) (val : ν)

/-- The operation of the code. -/
def call (g : G κ ν) : Op κ ν → Py (G κ ν)
  | .newDict d => .ok (newDict g d).1
  | .addNode n a attr => addNode g n a attr
  | .addNodesFrom ns attr => addNodesFrom g ns attr
  | .addEdge u v attr => addEdge g u v attr
  | .addEdgesFrom es attr => addEdgesFrom g es attr
  | .removeEdge u v => removeEdge g u v
  | .removeNode n => removeNode g n
  | .setEdgeAttr u v key val => setEdgeAttr g u v key val

/-- What it does to the specified graph; `none` when it has to be refused. -/
def meant (s : OGraph κ ν) : Op κ ν → Option (OGraph κ ν)
  | .newDict _ => some s
  | .addNode n _ _ => some (s.addNode n)
  | .addNodesFrom ns _ => some (ns.foldl OGraph.addNode s)
  | .addEdge u v attr => some (s.addEdge u v attr)
  | .addEdgesFrom es attr => some (es.foldl (fun s e => s.addEdge e.1 e.2.1 (attr ++ e.2.2)) s)
  | .removeEdge u v => if (u, v) ∈ s.edges then some (s.removeEdge u v) else none
  | .removeNode n => if n ∈ s.nodes then some (s.removeNode n) else none
  | .setEdgeAttr u v key val =>
    if (u, v) ∈ s.edges then some (s.setData u v ((s.data u v).set key val)) else none

/-- Run a history; an operation that raises leaves the graph as it is (each raises before its first change).
The second component tells which operations raised. -/
def run : G κ ν → List (Op κ ν) → G κ ν × List Bool
  | g, [] => (g, [])
  | g, op :: ops => match call g op with
    | .ok g' => ((run g' ops).1, false :: (run g' ops).2)
    | .error _ => ((run g ops).1, true :: (run g ops).2)

/-- The same for the specification. -/
def runSpec : OGraph κ ν → List (Op κ ν) → OGraph κ ν × List Bool
  | s, [] => (s, [])
  | s, op :: ops => match meant s op with
    | some s' => ((runSpec s' ops).1, false :: (runSpec s' ops).2)
    | none => ((runSpec s ops).1, true :: (runSpec s ops).2)

private theorem call_rep {g : G κ ν} {s : OGraph κ ν} (h : Rep g s) (op : Op κ ν) :
    match meant s op with
    | some s' => ∃ g', call g op = .ok g' ∧ Rep g' s'
    | none => ∃ e, call g op = .error e := by
  cases op with
  | newDict d => exact ⟨_, rfl, h.nheap _ _⟩
  | addNode n a attr => exact h.addNode n a attr
  | addNodesFrom ns attr => exact h.addNodesFrom ns attr
  | addEdge u v attr => exact h.addEdge u v attr
  | addEdgesFrom es attr => exact h.addEdgesFrom es attr
  | removeEdge u v =>
    simp only [meant, call]
    by_cases he : (u, v) ∈ s.edges
    · rw [if_pos he]
      obtain ⟨g', e1, e2, _⟩ := h.removeEdge u v he
      exact ⟨g', e1, e2⟩
    · rw [if_neg he]; exact ⟨_, removeEdge_absent h u v he⟩
  | removeNode n =>
    simp only [meant, call]
    by_cases hn : n ∈ s.nodes
    · rw [if_pos hn]; exact h.removeNode n hn
    · rw [if_neg hn]; exact ⟨_, removeNode_absent h n hn⟩
  | setEdgeAttr u v key val =>
    simp only [meant, call]
    by_cases he : (u, v) ∈ s.edges
    · rw [if_pos he]; exact h.setEdgeAttr u v key val he
    · rw [if_neg he]
      have hr := he
      rw [← h.ref_iff] at hr
      unfold succRef at hr
      unfold Graph.setEdgeAttr
      cases hu : g.succ.get? u with
      | none => exact ⟨.keyError, by simp [AD.get, hu]⟩
      | some m =>
        rw [hu] at hr
        have : m.get? v = none := by simpa using hr
        exact ⟨.keyError, by simp [AD.get, hu, this]⟩

private theorem run_rep {g : G κ ν} {s : OGraph κ ν} (h : Rep g s) (ops : List (Op κ ν)) :
    Rep (run g ops).1 (runSpec s ops).1 ∧ (run g ops).2 = (runSpec s ops).2 := by
  induction ops generalizing g s with
  | nil => exact ⟨h, rfl⟩
  | cons op ops ih =>
    have := call_rep h op
    simp only [run, runSpec]
    cases hm : meant s op with
    | some s' =>
      rw [hm] at this
      obtain ⟨g', e1, e2⟩ := this
      rw [e1]
      have := ih e2
      exact ⟨this.1, by dsimp only; rw [this.2]⟩
    | none =>
      rw [hm] at this
      obtain ⟨e, e1⟩ := this
      rw [e1]
      have := ih h
      exact ⟨this.1, by dsimp only; rw [this.2]⟩

/-- C27.  After any history: nodes in order of insertion; successors and predecessors are the endpoints of the
edges in order of insertion; an edge seen from both sides is the same data object, holding the attributes last
assigned; every endpoint is a node; the operations that raise are those on absent nodes and edges. -/
theorem odigraph_refines (ops : List (Op κ ν)) :
    let g := (run empty ops).1
    let s := (runSpec (⟨[], [], fun _ _ => []⟩ : OGraph κ ν) ops).1
    nodes g = s.nodes ∧ s.nodes.Nodup ∧
    (∀ n ∈ s.nodes, successors g n = .ok (s.successors n) ∧ predecessors g n = .ok (s.predecessors n)) ∧
    (∀ u v, succRef g u v = predRef g u v) ∧
    (∀ u v, edgeData g u v = if (u, v) ∈ s.edges then some (s.data u v) else none) ∧
    (∀ u v, (u, v) ∈ s.edges → u ∈ s.nodes ∧ v ∈ s.nodes) ∧
    (run empty ops).2 = (runSpec (⟨[], [], fun _ _ => []⟩ : OGraph κ ν) ops).2 := by
  intro g s
  obtain ⟨h, hb⟩ := run_rep (Rep.empty (κ := κ) (ν := ν)) ops
  refine ⟨h.skeys, h.nodup, ?_, h.same, ?_, fun u v he => h.ends _ he, hb⟩
  · intro n hn
    obtain ⟨m, hm⟩ := exists_of_mem (d := g.succ) (k := n) (by rw [h.skeys]; exact hn)
    obtain ⟨p, hp⟩ := exists_of_mem (d := g.pred) (k := n) (by rw [h.pkeys]; exact hn)
    unfold successors predecessors
    rw [hm, hp]
    exact ⟨congrArg Except.ok (h.succs n m hm), congrArg Except.ok (h.preds n p hp)⟩
  · intro u v
    unfold edgeData
    by_cases he : (u, v) ∈ s.edges
    · rw [if_pos he]
      obtain ⟨r, hr⟩ := Option.isSome_iff_exists.1 ((h.ref_iff u v).2 he)
      rw [hr, Option.map_some, h.data u v r hr]
    · rw [if_neg he]
      have := (h.ref_iff u v).not.2 he
      have hn : succRef g u v = none := by simpa using this
      rw [hn]; rfl

/-- C27 in short: `v` is a successor of `u` exactly when `u` is a predecessor of `v`. -/
theorem odigraph_views_agree (ops : List (Op κ ν)) (u v : κ) (su pv : List κ)
    (hs : successors (run empty ops).1 u = .ok su) (hp : predecessors (run empty ops).1 v = .ok pv) :
    v ∈ su ↔ u ∈ pv := by
  obtain ⟨h, _⟩ := run_rep (Rep.empty (κ := κ) (ν := ν)) ops
  have h1 : su = (runSpec (⟨[], [], fun _ _ => []⟩ : OGraph κ ν) ops).1.successors u := by
    unfold successors at hs
    split at hs
    · rename_i m hm
      simp only [Except.ok.injEq] at hs
      rw [← hs]; exact h.succs u m hm
    · simp at hs
  have h2 : pv = (runSpec (⟨[], [], fun _ _ => []⟩ : OGraph κ ν) ops).1.predecessors v := by
    unfold predecessors at hp
    split at hp
    · rename_i m hm
      simp only [Except.ok.injEq] at hp
      rw [← hp]; exact h.preds v m hm
    · simp at hp
  rw [h1, h2, mem_successors, mem_predecessors]

example : let g := (run (empty : G String Nat) [.addEdge "a" "c" [("w", 1)], .addEdge "a" "b" [],
      .addEdge "a" "c" [("w", 2)], .removeNode "b", .removeEdge "b" "c", .addEdge "a" "b" []]).1
    successors g "a" = .ok ["c", "b"] ∧ predecessors g "b" = .ok ["a"] ∧ edgeData g "a" "c" = some [("w", 2)] := by
  decide +kernel

/-! ### C58: attributes of nodes -/

/-- No two nodes share their attribute dictionary, and dictionaries in use are allocated. -/
structure Own (g : G κ ν) : Prop where
  inj : ∀ a b r, g.node.get? a = some r → g.node.get? b = some r → a = b
  lt : ∀ a r, g.node.get? a = some r → r < g.nfresh

private theorem addNode_own {g : G κ ν} {s : OGraph κ ν} (h : Rep g s) (hown : Own g) (n : κ) (attr : AD String ν) :
    ∃ g', addNode g n none attr = .ok g' ∧ Own g' ∧
      (∀ x, x ≠ n → nodeAttrs g' x = nodeAttrs g x) ∧
      (nodeAttrs g n = none → nodeAttrs g' n = some attr) ∧
      (∀ d, nodeAttrs g n = some d → nodeAttrs g' n = some (OGraph.merge d attr)) := by
  unfold Graph.addNode putNode newDict
  dsimp only
  by_cases hn : n ∈ s.nodes
  · rw [if_pos ((h.mem n).2 hn)]
    obtain ⟨b, hb⟩ := exists_of_mem ((h.nkeys n).2 hn)
    rw [AD.get_eq hb]
    have hlt := hown.lt n b hb
    have hbf : ¬ g.nfresh = b := by omega
    have hbf' : ¬ b = g.nfresh := by omega
    refine ⟨_, rfl, ⟨hown.inj, fun a r hr => ?_⟩, ?_, ?_, ?_⟩
    · have := hown.lt a r hr; dsimp only; omega
    · intro x hx
      unfold nodeAttrs
      dsimp only
      cases hxr : g.node.get? x with
      | none => rfl
      | some r =>
        have h1 : r ≠ b := fun hc => hx (hown.inj x n r hxr (hc ▸ hb))
        have h2 := hown.lt x r hxr
        have h3 : r ≠ g.nfresh := by omega
        simp [upd, h1, h3]
    · intro hnone; unfold nodeAttrs at hnone; rw [hb] at hnone; simp at hnone
    · intro d hd
      unfold nodeAttrs at hd ⊢
      dsimp only
      rw [hb] at hd ⊢
      simp only [Option.map_some, Option.some.injEq] at hd
      simp only [Option.map_some, upd, if_true, hbf', if_false, hd, Option.some.injEq]
      rfl
  · rw [if_neg (fun hc => hn ((h.mem n).1 hc))]
    have hnk : g.node.get? n = none := by
      rw [← AD.not_mem_keys_iff, h.nkeys]; exact hn
    refine ⟨_, rfl, ⟨?_, ?_⟩, ?_, ?_, ?_⟩
    · intro a b r ha hb
      dsimp only at ha hb
      rw [AD.get?_set] at ha hb
      split at ha <;> split at hb
      · rename_i q1 q2; rw [q1, q2]
      · simp only [Option.some.injEq] at ha
        have := hown.lt b r hb; omega
      · simp only [Option.some.injEq] at hb
        have := hown.lt a r ha; omega
      · exact hown.inj a b r ha hb
    · intro a r ha
      dsimp only at ha ⊢
      rw [AD.get?_set] at ha
      split at ha
      · simp only [Option.some.injEq] at ha; omega
      · have := hown.lt a r ha; omega
    · intro x hx
      unfold nodeAttrs
      dsimp only
      rw [AD.get?_set, if_neg hx]
      cases hxr : g.node.get? x with
      | none => rfl
      | some r =>
        have h2 := hown.lt x r hxr
        have h3 : r ≠ g.nfresh := by omega
        simp [upd, h3]
    · intro _
      unfold nodeAttrs
      dsimp only
      rw [AD.get?_set_self]
      simp [upd]
    · intro d hd; unfold nodeAttrs at hd; rw [hnk] at hd; simp at hd

/-- Operations that give a node a dictionary of its own. -/
def Unshared : Op κ ν → Prop
  | .addNode _ a _ => a = none
  | .addNodesFrom ns _ => ns.length ≤ 1
  | _ => True

private theorem Own.of_eq {g g' : G κ ν} (h : Own g) (h1 : g'.node = g.node) (h2 : g.nfresh ≤ g'.nfresh) : Own g' := by
  refine ⟨fun a b r ha hb => h.inj a b r (h1 ▸ ha) (h1 ▸ hb), fun a r ha => ?_⟩
  have := h.lt a r (h1 ▸ ha); omega

private theorem putEdge_node {g g' : G κ ν} {u v : κ} {attr : AD String ν} (h : putEdge g u v attr = .ok g') :
    g'.node = g.node ∧ g'.nfresh = g.nfresh := by
  unfold putEdge at h
  simp only [bind, Except.bind] at h
  split at h
  · simp at h
  · split at h
    · simp at h
    · split at h
      · simp at h
      · simp only [Except.ok.injEq] at h
        rw [← h]
        dsimp only
        split <;> exact ⟨rfl, rfl⟩

private theorem Own.ensureNode {g : G κ ν} (h : Own g) (n : κ) : Own (ensureNode g n) := by
  unfold Graph.ensureNode
  split
  · exact h
  · refine ⟨?_, ?_⟩
    · intro a b r ha hb
      dsimp only at ha hb
      rw [AD.get?_set] at ha hb
      split at ha <;> split at hb
      · rename_i q1 q2; rw [q1, q2]
      · simp only [Option.some.injEq] at ha
        have := h.lt b r hb; omega
      · simp only [Option.some.injEq] at hb
        have := h.lt a r ha; omega
      · exact h.inj a b r ha hb
    · intro a r ha
      dsimp only at ha ⊢
      rw [AD.get?_set] at ha
      split at ha
      · simp only [Option.some.injEq] at ha; omega
      · have := h.lt a r ha; omega

private theorem Own.addEdge {g g' : G κ ν} (h : Own g) {u v : κ} {attr : AD String ν}
    (he : addEdge g u v attr = .ok g') : Own g' := by
  have := putEdge_node he
  exact ((h.ensureNode u).ensureNode v).of_eq this.1 (le_of_eq this.2.symm)

private theorem addNodesFrom_one (g : G κ ν) (n : κ) (attr : AD String ν) :
    addNodesFrom g [n] attr = addNode g n none attr := by
  unfold addNodesFrom addNode
  simp only [Py.forIn]
  split <;> simp_all

private theorem own_call {g g' : G κ ν} {s : OGraph κ ν} (hr : Rep g s) (h : Own g) (op : Op κ ν) (hu : Unshared op)
    (hc : call g op = .ok g') : Own g' := by
  cases op with
  | newDict d =>
    simp only [call, newDict, Except.ok.injEq] at hc
    rw [← hc]; exact h.of_eq rfl (by simp)
  | addNode n a attr =>
    simp only [Unshared] at hu
    subst hu
    obtain ⟨g1, e1, e2, _⟩ := addNode_own hr h n attr
    simp only [call] at hc
    rw [hc] at e1
    simp only [Except.ok.injEq] at e1
    exact e1 ▸ e2
  | addNodesFrom ns attr =>
    rcases ns with _ | ⟨n, _ | ⟨m, ns⟩⟩
    · simp only [call, addNodesFrom, newDict, Py.forIn, Except.ok.injEq] at hc
      rw [← hc]; exact h.of_eq rfl (by simp)
    · obtain ⟨g1, e1, e2, _⟩ := addNode_own hr h n attr
      simp only [call, addNodesFrom_one] at hc
      rw [hc] at e1
      simp only [Except.ok.injEq] at e1
      exact e1 ▸ e2
    · simp only [Unshared, List.length_cons] at hu; omega
  | addEdge u v attr => exact h.addEdge hc
  | addEdgesFrom es attr =>
    simp only [call, addEdgesFrom] at hc
    clear hr hu
    induction es generalizing g with
    | nil =>
      simp only [Py.forIn, Except.ok.injEq] at hc
      exact hc ▸ h
    | cons e es ih =>
      simp only [Py.forIn] at hc
      split at hc
      · rename_i g1 h1
        exact ih (h.addEdge h1) hc
      · simp at hc
  | removeEdge u v =>
    simp only [call, Graph.removeEdge] at hc
    split at hc
    · simp at hc
    · split at hc
      · simp at hc
      · simp only [Except.ok.injEq] at hc
        rw [← hc]; exact h.of_eq rfl (le_refl _)
  | removeNode n =>
    simp only [call, Graph.removeNode] at hc
    split at hc
    · simp at hc
    · split at hc
      · simp only [bind, Except.bind] at hc
        split at hc
        · simp at hc
        · split at hc
          · simp at hc
          · split at hc
            · simp at hc
            · simp only [Except.ok.injEq] at hc
              rw [← hc]
              refine ⟨?_, ?_⟩
              · intro a b r ha hb
                dsimp only at ha hb
                rw [AD.get?_del] at ha hb
                split at ha
                · simp at ha
                · split at hb
                  · simp at hb
                  · exact h.inj a b r ha hb
              · intro a r ha
                dsimp only at ha
                rw [AD.get?_del] at ha
                split at ha
                · simp at ha
                · exact h.lt a r ha
      · simp at hc
  | setEdgeAttr u v key val =>
    simp only [call, Graph.setEdgeAttr] at hc
    split at hc
    · simp at hc
    · split at hc
      · simp at hc
      · simp only [Except.ok.injEq] at hc
        rw [← hc]; exact h.of_eq rfl (le_refl _)

private theorem own_run {g : G κ ν} {s : OGraph κ ν} (hr : Rep g s) (h : Own g) (ops : List (Op κ ν))
    (hu : ∀ op ∈ ops, Unshared op) : Own (run g ops).1 := by
  induction ops generalizing g s with
  | nil => exact h
  | cons op ops ih =>
    have h1 := call_rep hr op
    simp only [run]
    cases hm : meant s op with
    | some s' =>
      rw [hm] at h1
      obtain ⟨g', e1, e2⟩ := h1
      rw [e1]
      exact ih e2 (own_call hr h op (hu op (by simp)) e1) (fun o ho => hu o (by simp [ho]))
    | none =>
      rw [hm] at h1
      obtain ⟨e, e1⟩ := h1
      rw [e1]
      exact ih hr h (fun o ho => hu o (by simp [ho]))

/-- C58.  In histories in which nodes are added one by one with keyword attributes only, `add_node` changes the
attributes of no other node, gives a new node the attributes, and updates those of an existing node. -/
theorem add_node_independent (ops : List (Op κ ν)) (hu : ∀ op ∈ ops, Unshared op) (n : κ)
    (attr : AD String ν) :
    ∃ g', addNode (run empty ops).1 n none attr = .ok g' ∧
      (∀ x, x ≠ n → nodeAttrs g' x = nodeAttrs (run empty ops).1 x) ∧
      (nodeAttrs (run empty ops).1 n = none → nodeAttrs g' n = some attr) ∧
      (∀ d, nodeAttrs (run empty ops).1 n = some d → nodeAttrs g' n = some (OGraph.merge d attr)) := by
  obtain ⟨h, _⟩ := run_rep (Rep.empty (κ := κ) (ν := ν)) ops
  have hown : Own (run (empty : G κ ν) ops).1 :=
    own_run Rep.empty ⟨by simp [empty], by simp [empty]⟩ ops hu
  obtain ⟨g', e1, _, e3⟩ := addNode_own h hown n attr
  exact ⟨g', e1, e3⟩

/-- The nodes an operation adds with attributes, or removes. -/
def touched : Op κ ν → List κ
  | .addNode n _ _ => [n]
  | .addNodesFrom ns _ => ns
  | .removeNode n => [n]
  | _ => []

private theorem attrs_of_eq {g g' : G κ ν} (hown : Own g) (h1 : g'.node = g.node)
    (h2 : ∀ r, r < g.nfresh → g'.nheap r = g.nheap r) (x : κ) : nodeAttrs g' x = nodeAttrs g x := by
  unfold nodeAttrs
  rw [h1]
  cases hx : g.node.get? x with
  | none => rfl
  | some r => simp [h2 r (hown.lt x r hx)]

private theorem putEdge_heap {g g' : G κ ν} {u v : κ} {attr : AD String ν} (h : putEdge g u v attr = .ok g') :
    g'.nheap = g.nheap := by
  unfold putEdge at h
  simp only [bind, Except.bind] at h
  split at h
  · simp at h
  · split at h
    · simp at h
    · split at h
      · simp at h
      · simp only [Except.ok.injEq] at h
        rw [← h]
        dsimp only
        split <;> rfl

private theorem ensureNode_attrs {g : G κ ν} (hown : Own g) (n x : κ) (d : AD String ν)
    {s : OGraph κ ν} (hr : Rep g s) (hx : nodeAttrs g x = some d) : nodeAttrs (ensureNode g n) x = some d := by
  unfold Graph.ensureNode
  split
  · exact hx
  · rename_i hn
    have hnn : g.node.get? n = none := by
      rw [← AD.not_mem_keys_iff, hr.nkeys]; exact fun hc => hn ((hr.mem n).2 hc)
    unfold nodeAttrs at hx ⊢
    dsimp only
    rw [AD.get?_set]
    split
    · rename_i q; subst q; rw [hnn] at hx; simp at hx
    · cases hxr : g.node.get? x with
      | none => rw [hxr] at hx; simp at hx
      | some r =>
        rw [hxr] at hx
        have h2 := hown.lt x r hxr
        have h3 : r ≠ g.nfresh := by omega
        simpa [upd, h3] using hx

private theorem addEdge_attrs {g g' : G κ ν} {s : OGraph κ ν} (hr : Rep g s) (hown : Own g) {u v : κ}
    {attr : AD String ν} (he : addEdge g u v attr = .ok g') (x : κ) (d : AD String ν)
    (hx : nodeAttrs g x = some d) : nodeAttrs g' x = some d := by
  have h1 := ensureNode_attrs hown u x d hr hx
  have h2 := ensureNode_attrs (hown.ensureNode u) v x d (hr.ensureNode u) h1
  rw [← h2]
  unfold nodeAttrs
  rw [(putEdge_node he).1, putEdge_heap he]

/-- C58.  After a history in which nodes are added one by one with keyword attributes only, an operation changes
the attributes of the nodes it adds or removes and of no others; adding, changing and removing edges changes the
attributes of no node. -/
theorem attributes_independent (ops : List (Op κ ν)) (op : Op κ ν) (hu : ∀ o ∈ op :: ops, Unshared o)
    (g' : G κ ν) (hc : call (run empty ops).1 op = .ok g') (x : κ) (hx : x ∉ touched op) (d : AD String ν)
    (hd : nodeAttrs (run empty ops).1 x = some d) : nodeAttrs g' x = some d := by
  obtain ⟨hr, _⟩ := run_rep (Rep.empty (κ := κ) (ν := ν)) ops
  have hown : Own (run (empty : G κ ν) ops).1 :=
    own_run Rep.empty ⟨by simp [empty], by simp [empty]⟩ ops (fun o ho => hu o (by simp [ho]))
  have huo := hu op (by simp)
  revert hr hown hc hd
  generalize (run (empty : G κ ν) ops).1 = g
  generalize (runSpec (⟨[], [], fun _ _ => []⟩ : OGraph κ ν) ops).1 = s
  intro hc hd hr hown
  have hnode : ∀ n, x ≠ n → ∀ attr, addNode g n none attr = .ok g' → nodeAttrs g' x = some d := by
    intro n hn attr h1
    obtain ⟨g1, e1, _, e3, _⟩ := addNode_own hr hown n attr
    rw [h1] at e1
    simp only [Except.ok.injEq] at e1
    rw [e1, e3 x hn, hd]
  cases op with
  | newDict d0 =>
    simp only [call, newDict, Except.ok.injEq] at hc
    rw [← hc, ← hd]
    refine attrs_of_eq hown (by rfl) ?_ x
    intro r hlt
    have : r ≠ g.nfresh := by omega
    simp [upd, this]
  | addNode n a attr =>
    simp only [Unshared] at huo
    subst huo
    exact hnode n (by simpa [touched] using hx) attr hc
  | addNodesFrom ns attr =>
    rcases ns with _ | ⟨n, _ | ⟨m, ns⟩⟩
    · simp only [call, addNodesFrom, newDict, Py.forIn, Except.ok.injEq] at hc
      rw [← hc, ← hd]
      refine attrs_of_eq hown (by rfl) ?_ x
      intro r hlt
      have : r ≠ g.nfresh := by omega
      simp [upd, this]
    · simp only [call, addNodesFrom_one] at hc
      exact hnode n (by simpa [touched] using hx) attr hc
    · simp only [Unshared, List.length_cons] at huo; omega
  | addEdge u v attr => exact addEdge_attrs hr hown hc x d hd
  | addEdgesFrom es attr =>
    simp only [call, addEdgesFrom] at hc
    clear hu huo hx hnode
    induction es generalizing g s with
    | nil =>
      simp only [Py.forIn, Except.ok.injEq] at hc
      exact hc ▸ hd
    | cons e es ih =>
      simp only [Py.forIn] at hc
      split at hc
      · rename_i g1 h1
        obtain ⟨g2, e1, e2⟩ := hr.addEdge e.1 e.2.1 (attr ++ e.2.2)
        exact ih _ _ (addEdge_attrs hr hown h1 x d hd) (by rw [h1] at e1; cases e1; exact e2) (hown.addEdge h1) hc
      · simp at hc
  | removeEdge u v =>
    simp only [call, Graph.removeEdge] at hc
    split at hc
    · simp at hc
    · split at hc
      · simp at hc
      · simp only [Except.ok.injEq] at hc
        rw [← hc, ← hd]; exact attrs_of_eq hown rfl (fun _ _ => rfl) x
  | removeNode n =>
    have hxn : x ≠ n := by simpa [touched] using hx
    simp only [call, Graph.removeNode] at hc
    split at hc
    · simp at hc
    · split at hc
      · simp only [bind, Except.bind] at hc
        split at hc
        · simp at hc
        · split at hc
          · simp at hc
          · split at hc
            · simp at hc
            · simp only [Except.ok.injEq] at hc
              rw [← hc, ← hd]
              unfold nodeAttrs
              dsimp only
              rw [AD.get?_del, if_neg hxn]
      · simp at hc
  | setEdgeAttr u v key val =>
    simp only [call, Graph.setEdgeAttr] at hc
    split at hc
    · simp at hc
    · split at hc
      · simp at hc
      · simp only [Except.ok.injEq] at hc
        rw [← hc, ← hd]; exact attrs_of_eq hown rfl (fun _ _ => rfl) x

/-- C58 is violated by `add_nodes_from`: the new nodes share one dictionary, so a later `add_node` on one of them
changes the attributes of the other. -/
theorem add_nodes_from_shares (a b : κ) (hab : a ≠ b) (x y : ν) :
    let g := (run (empty : G κ ν) [.addNodesFrom [a, b] [("size", x)], .addNode a none [("size", y)]]).1
    nodeAttrs g b = some [("size", y)] := by
  have hba : ¬ b = a := fun h => hab h.symm
  simp [run, call, addNodesFrom, newDict, Py.forIn, putNode, empty, AD.has, AD.get?, AD.set, addNode, hab, hba,
    AD.get, nodeAttrs, upd, dictUpdate]

/-- Also two `add_node` calls with the same caller's dictionary make the nodes share it. -/
theorem add_node_dict_shares (a b : κ) (hab : a ≠ b) (x : ν) :
    let g := (run (empty : G κ ν) [.newDict [], .addNode a (some 0) [], .addNode b (some 0) [("size", x)]]).1
    nodeAttrs g a = some [("size", x)] := by
  have hba : ¬ b = a := fun h => hab h.symm
  simp [run, call, newDict, putNode, empty, AD.has, AD.get?, AD.set, addNode, hab, hba,
    nodeAttrs, upd, dictUpdate]

example : (∀ op ∈ ([.addNode "a" none [("x", 1)], .addEdge "a" "b" []] : List (Op String Nat)), Unshared op) ∧
    nodeAttrs (run (empty : G String Nat) [.addNode "a" none [("x", 1)], .addEdge "a" "b" []]).1 "a" =
      some [("x", 1)] := by
  refine ⟨by simp [Unshared], by decide +kernel⟩

end Verif.Props.Graph
