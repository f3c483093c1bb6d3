import Verif.Lemmas.DaesoGraph
import Verif.Spec.Whitespace
import Verif.Spec.Terminals
import Verif.Lemmas.MunkresRun

/-! Properties C28, C29 and C30 (lib/daeso/graph/daesograph.py). -/
namespace Verif.Props.DaesoGraph
open Verif Verif.Spec Verif.Graph Verif.DaesoGraph

variable {κ : Type} [DecidableEq κ]

/-- The DaesoGraphs a program can build with the methods of the class and the inherited removals. -/
inductive Built : DG κ → Prop
  | empty (tokens : Option (List String)) (root : Option κ) : Built (DaesoGraph.empty tokens root)
  | addNode {g g' : DG κ} {n : κ} {label : Val} {tokens : Option (List String)} {ad : Option Nat}
      {attr : AD String Val} : Built g → addNode g n label tokens ad attr = .ok g' → Built g'
  | addEdge {g g' : DG κ} {u v : κ} {label : Val} {attr : AD String Val} :
      Built g → addEdge g u v label attr = .ok g' → Built g'
  | addEdgesFrom {g : DG κ} (label : Val) (attr : AD String Val) (es : List (κ × κ × AD String Val)) :
      Built g → Built (addEdgesFrom g label attr es).1
  | removeNode {g : DG κ} {h : G κ Val} {n : κ} : Built g → Graph.removeNode g.graph n = .ok h →
      Built { g with graph := h }
  | removeEdge {g : DG κ} {h : G κ Val} {u v : κ} : Built g → Graph.removeEdge g.graph u v = .ok h →
      Built { g with graph := h }
  | setNodeTokens {g g' : DG κ} {n : κ} {v : Val} : Built g → setNodeTokens g n v = .ok g' → Built g'
  | setRoot {g : DG κ} (r : Option κ) : Built g → Built { g with root := r }

/-- Every node has a token attribute. -/
private def HasTokens (g : G κ Val) : Prop :=
  ∀ n a, g.node.get? n = some a → ((g.nheap a).get? "tokens").isSome

private theorem dictUpdate_isSome {κ ν : Type} [DecidableEq κ] (d e : AD κ ν) (k : κ) (h : (d.get? k).isSome ∨ k ∈ e.keys) :
    ((dictUpdate d e).get? k).isSome := by
  unfold dictUpdate
  induction e generalizing d with
  | nil => rcases h with h | h
           · exact h
           · simp [AD.keys] at h
  | cons x e ih =>
    rw [List.foldl_cons]
    refine ih _ ?_
    by_cases hk : k = x.1
    · left; subst hk; simp
    · rcases h with h | h
      · left; rw [AD.get?_set, if_neg hk]; exact h
      · right
        simp only [AD.keys, List.map_cons, List.mem_cons] at h
        exact h.resolve_left hk

private theorem isSome_upd {h : Nat → AD String Val} {a b : Nat} {d : AD String Val}
    (h1 : ((h b).get? "tokens").isSome ∨ a = b) (h2 : (d.get? "tokens").isSome) :
    ((upd h a d b).get? "tokens").isSome := by
  unfold upd
  split
  · exact h2
  · rename_i hn
    rcases h1 with h1 | h1
    · exact h1
    · exact absurd h1.symm hn

private theorem tokens_mem (label : Val) (t : List String) (attr : AD String Val) :
    "tokens" ∈ AD.keys ([("label", label), ("tokens", Val.toks t)] ++ attr) := by
  simp [AD.keys]

private theorem putNode_tokens {g g' : G κ Val} (hT : HasTokens g) {n : κ} {a : Nat}
    (ha : ((g.nheap a).get? "tokens").isSome) (h : putNode g n a = .ok g') : HasTokens g' := by
  unfold putNode at h
  split at h
  · split at h
    · rename_i b hb
      simp only [Except.ok.injEq] at h
      subst h
      intro m c hc
      have hbT : ((g.nheap b).get? "tokens").isSome := by
        cases hgn : g.node.get? n with
        | none => simp [AD.get, hgn] at hb
        | some b' =>
          rw [AD.get_eq hgn] at hb
          simp only [Except.ok.injEq] at hb
          exact hb ▸ hT n b' hgn
      exact isSome_upd (Or.inl (hT m c hc)) (dictUpdate_isSome _ _ _ (Or.inl hbT))
    · simp at h
  · simp only [Except.ok.injEq] at h
    subst h
    intro m c hc
    dsimp only at hc ⊢
    rw [AD.get?_set] at hc
    split at hc
    · simp only [Option.some.injEq] at hc
      exact hc ▸ ha
    · exact hT m c hc

private theorem putEdge_node {ν : Type} {g g' : G κ ν} {u v : κ} {attr : AD String ν} (h : putEdge g u v attr = .ok g') :
    g'.node = g.node ∧ g'.nheap = g.nheap := by
  unfold putEdge at h
  simp only [bind, Except.bind] at h
  split at h
  · simp at h
  · split at h
    · simp at h
    · split at h
      · simp at h
      · simp only [Except.ok.injEq] at h
        rw [← h]
        dsimp only
        split <;> exact ⟨rfl, rfl⟩

private theorem addEdgesFrom_rep {g : DG κ} {s : OGraph κ Val} (hr : Rep g.graph s) (hT : HasTokens g.graph)
    (label : Val) (attr : AD String Val) (es : List (κ × κ × AD String Val)) :
    (∃ s', Rep (addEdgesFrom g label attr es).1.graph s') ∧ HasTokens (addEdgesFrom g label attr es).1.graph := by
  induction es generalizing g s with
  | nil => exact ⟨⟨s, hr⟩, hT⟩
  | cons e es ih =>
    obtain ⟨u, v, dd⟩ := e
    unfold DaesoGraph.addEdgesFrom
    split
    · exact ⟨⟨s, hr⟩, hT⟩
    · rename_i hu
      split
      · exact ⟨⟨s, hr⟩, hT⟩
      · rename_i hv
        rw [not_not] at hu hv
        rw [hr.mem] at hu hv
        obtain ⟨g', e1, e2⟩ := hr.putEdge u v ((attr ++ [("label", label)]) ++ dd) hu hv
        have hn := putEdge_node e1
        rw [e1]
        refine ih (g := { g with graph := g' }) e2 ?_
        intro n a ha
        rw [hn.2]; rw [hn.1] at ha; exact hT n a ha

private theorem Built.rep {g : DG κ} (h : Built g) : (∃ s, Rep g.graph s) ∧ HasTokens g.graph := by
  induction h with
  | empty t r => exact ⟨⟨_, Rep.empty⟩, by intro n a ha; simp [DaesoGraph.empty, Graph.empty] at ha⟩
  | @addNode g g' n label tokens ad attr _ he ih =>
    obtain ⟨⟨s, hr⟩, hT⟩ := ih
    unfold DaesoGraph.addNode at he
    obtain ⟨g1, e1, e2⟩ := hr.addNode n ad ([("label", label), ("tokens", .toks (tokens.getD []))] ++ attr)
    rw [e1] at he
    simp only [Except.ok.injEq] at he
    subst he
    refine ⟨⟨_, e2⟩, ?_⟩
    have htok := tokens_mem label (tokens.getD []) attr
    dsimp only
    unfold Graph.addNode at e1
    cases ad with
    | none =>
      refine putNode_tokens ?_ ?_ e1
      · intro m c hc
        exact isSome_upd (Or.inl (hT m c hc)) (by rw [← AD.mem_keys_iff]; exact htok)
      · simp only [newDict, upd, if_true]
        rw [← AD.mem_keys_iff]; exact htok
    | some a =>
      refine putNode_tokens ?_ ?_ e1
      · intro m c hc
        exact isSome_upd (Or.inl (hT m c hc)) (dictUpdate_isSome _ _ _ (Or.inr htok))
      · exact isSome_upd (Or.inr rfl) (dictUpdate_isSome _ _ _ (Or.inr htok))
  | @addEdge g g' u v label attr _ he ih =>
    obtain ⟨⟨s, hr⟩, hT⟩ := ih
    unfold DaesoGraph.addEdge at he
    split at he
    · simp at he
    · rename_i hu
      split at he
      · simp at he
      · rename_i hv
        rw [not_not] at hu hv
        rw [hr.mem] at hu hv
        obtain ⟨g1, e1, e2⟩ := hr.putEdge u v (attr ++ [("label", label)]) hu hv
        have hn := putEdge_node e1
        rw [e1] at he
        simp only [Except.ok.injEq] at he
        subst he
        refine ⟨⟨_, e2⟩, ?_⟩
        intro n a ha
        dsimp only at ha ⊢
        rw [hn.2]; rw [hn.1] at ha; exact hT n a ha
  | addEdgesFrom label attr es _ ih =>
    obtain ⟨⟨s, hr⟩, hT⟩ := ih
    exact addEdgesFrom_rep hr hT label attr es
  | @removeNode g h n _ he ih =>
    obtain ⟨⟨s, hr⟩, hT⟩ := ih
    by_cases hn : n ∈ s.nodes
    · obtain ⟨g1, e1, e2⟩ := hr.removeNode n hn
      have hgh : g1 = h := by rw [he] at e1; simpa using e1.symm
      subst hgh
      refine ⟨⟨_, e2⟩, ?_⟩
      intro m a ha
      unfold Graph.removeNode at he
      split at he
      · simp at he
      · split at he
        · simp only [bind, Except.bind] at he
          split at he
          · simp at he
          · split at he
            · simp at he
            · split at he
              · simp at he
              · simp only [Except.ok.injEq] at he
                rw [← he] at ha ⊢
                dsimp only at ha ⊢
                rw [AD.get?_del] at ha
                split at ha
                · simp at ha
                · exact hT m a ha
        · simp at he
    · rw [removeNode_absent hr n hn] at he; simp at he
  | @removeEdge g h u v _ he ih =>
    obtain ⟨⟨s, hr⟩, hT⟩ := ih
    by_cases hn : (u, v) ∈ s.edges
    · obtain ⟨g1, e1, e2, _⟩ := hr.removeEdge u v hn
      have hgh : g1 = h := by rw [he] at e1; simpa using e1.symm
      subst hgh
      refine ⟨⟨_, e2⟩, ?_⟩
      unfold Graph.removeEdge at he
      split at he
      · simp at he
      · split at he
        · simp at he
        · simp only [Except.ok.injEq] at he
          rw [← he]; exact hT
    · rw [removeEdge_absent hr u v hn] at he; simp at he
  | @setNodeTokens g g' n v _ he ih =>
    obtain ⟨⟨s, hr⟩, hT⟩ := ih
    unfold DaesoGraph.setNodeTokens at he
    split at he
    · simp at he
    · simp only [Except.ok.injEq] at he
      subst he
      refine ⟨⟨s, hr.nheap _ _⟩, ?_⟩
      intro m c hc
      exact isSome_upd (Or.inl (hT m c hc)) (by rw [AD.get?_set_self]; rfl)
  | setRoot r _ ih => exact ih

private theorem nodeTokens_ok {g : DG κ} {s : OGraph κ Val} (hr : Rep g.graph s) (hT : HasTokens g.graph) {v : κ}
    (hv : v ∈ s.nodes) : ∃ t, nodeTokens g v = .ok t := by
  obtain ⟨a, ha⟩ := exists_of_mem ((hr.nkeys v).2 hv)
  obtain ⟨t, ht⟩ := Option.isSome_iff_exists.1 (hT v a ha)
  exact ⟨t, by unfold nodeTokens; rw [AD.get_eq ha]; exact AD.get_eq ht⟩

private theorem isTerminal_ok {g : DG κ} {s : OGraph κ Val} (hr : Rep g.graph s) (hT : HasTokens g.graph) {v : κ}
    (hv : v ∈ s.nodes) (wp we : Bool) :
    ∃ b, isTerminal g v wp we = .ok b ∧ (b = true → s.successors v = []) := by
  obtain ⟨m, hm⟩ := exists_of_mem (d := g.graph.succ) (k := v) (by rw [hr.skeys]; exact hv)
  obtain ⟨t, ht⟩ := nodeTokens_ok hr hT hv
  have hp : ∃ b, isPunct g v = .ok b := by unfold isPunct; rw [ht]; cases t <;> exact ⟨_, rfl⟩
  have he : ∃ b, isEmpty g v = .ok b := by unfold isEmpty; rw [ht]; cases t <;> exact ⟨_, rfl⟩
  obtain ⟨bp, hp⟩ := hp
  obtain ⟨be, he⟩ := he
  unfold isTerminal
  rw [AD.get_eq hm]
  dsimp only
  by_cases hmn : m = []
  · have hs : s.successors v = [] := by rw [← hr.succs v m hm, hmn]; rfl
    rw [if_neg (by simpa using hmn), hp, he]
    cases wp <;> cases bp <;> cases we <;> cases be <;> exact ⟨_, rfl, fun _ => hs⟩
  · rw [if_pos hmn]; exact ⟨false, rfl, by simp⟩

/-- The start node of a `terminal_yield` call: the given node unless it is missing or false, else the root. -/
def startNode (falsy : κ → Bool) (g : DG κ) : Option κ → Option κ
  | some x => if falsy x then g.root else some x
  | none => g.root

private theorem yield_start (falsy : κ → Bool) (fuel : Nat) (g : DG κ) (n : Option κ) (wp we : Bool) (x : κ)
    (h : startNode falsy g n = some x) :
    terminalYield falsy fuel g n wp we =
      match yieldLoop (successors g.graph) (fun v => isTerminal g v wp we) fuel ⟨[x], [], []⟩ with
      | .ok s => .ok s.terminals
      | .error e => .error e := by
  unfold terminalYield
  unfold startNode at h
  cases n with
  | none => simp only [h]; try rfl
  | some y => simp only [h]; try rfl

/-- C28.  On every graph built through the API, cyclic or not, `terminal_yield` terminates and returns, each
once, exactly the terminals that can be reached from the start node. -/
theorem terminal_yield_reachable (falsy : κ → Bool) {g : DG κ} (hg : Built g) (n : Option κ) (x : κ)
    (hx : startNode falsy g n = some x) (hxn : x ∈ nodes g.graph) (wp we : Bool) (fuel : Nat)
    (hf : 2 * (nodes g.graph).length < fuel) :
    ∃ l, terminalYield falsy fuel g n wp we = .ok l ∧ l.Nodup ∧
      ∀ v, v ∈ l ↔ Relation.ReflTransGen (fun a b => hasEdge g.graph a b = true) x v ∧
        isTerminal g v wp we = .ok true := by
  obtain ⟨⟨s, hr⟩, hT⟩ := hg.rep
  have hnd : (nodes g.graph).Nodup := by unfold nodes; rw [hr.skeys]; exact hr.nodup
  have hsN : nodes g.graph = s.nodes := hr.skeys
  let P : κ → Bool := fun v => match isTerminal g v wp we with
    | .ok b => b
    | .error _ => false
  obtain ⟨st, e1, hI, hq⟩ := yield_loop (succs := successors g.graph) (T := fun v => isTerminal g v wp we)
    s.successors P (nodes g.graph).toFinset
    (by
      intro v hv
      rw [List.mem_toFinset] at hv
      obtain ⟨m, hm⟩ := exists_of_mem (d := g.graph.succ) (k := v) hv
      unfold successors; rw [hm]; exact congrArg Except.ok (hr.succs v m hm))
    (by
      intro v hv w hw
      rw [mem_successors] at hw
      rw [List.mem_toFinset, hsN]; exact (hr.ends _ hw).2)
    (by
      intro v hv
      rw [List.mem_toFinset, hsN] at hv
      obtain ⟨b, hb, _⟩ := isTerminal_ok hr hT hv wp we
      simp only [P, hb])
    x (by rw [List.mem_toFinset]; exact hxn) fuel
    (by rw [List.toFinset_card_of_nodup hnd]; exact hf)
  rw [yield_start falsy fuel g n wp we x hx, e1]
  refine ⟨st.terminals, rfl, ?_, ?_⟩
  · rw [hI.terms]; exact hI.nodup.filter _
  · intro v
    have hrel : (fun a b => b ∈ s.successors a) = fun a b => hasEdge g.graph a b = true := by
      funext a b
      apply propext
      rw [mem_successors, ← hr.ref_iff]; rfl
    rw [hI.terms, List.mem_filter, hI.reach hq v, hrel]
    refine and_congr_right fun _ => ?_
    simp only [P]
    cases isTerminal g v wp we <;> simp

private theorem mem_iff_infix (c : Char) (l : List Char) : c ∈ l ↔ [c] <:+: l := by
  constructor
  · intro h
    obtain ⟨s, t, rfl⟩ := List.append_of_mem h
    exact ⟨s, t, by simp⟩
  · intro h
    exact h.subset (by simp)

/-- C28.  A node is a terminal if it has no successors, and, unless these are asked for, some token that is no punctuation
mark or no tokens at all (`with_punct`) and some token (`with_empty`). -/
theorem isTerminal_exact {g : DG κ} (hg : Built g) {v : κ} (hv : v ∈ nodes g.graph) (wp we : Bool) :
    ∃ t b, nodeTokens g v = .ok t ∧ isTerminal g v wp we = .ok b ∧
      (b = true ↔ (∀ w, hasEdge g.graph v w = false) ∧ (wp = true ∨ ¬ Terminals.AllPunct t) ∧
        (we = true ∨ ¬ Terminals.NoTokens t)) := by
  obtain ⟨⟨s, hr⟩, hT⟩ := hg.rep
  have hsN : nodes g.graph = s.nodes := hr.skeys
  rw [hsN] at hv
  obtain ⟨m, hm⟩ := exists_of_mem (d := g.graph.succ) (k := v) (by rw [hr.skeys]; exact hv)
  obtain ⟨t, ht⟩ := nodeTokens_ok hr hT hv
  have hp : ∃ b, isPunct g v = .ok b ∧ (b = true ↔ Terminals.AllPunct t) := by
    unfold isPunct
    rw [ht]
    cases t with
    | none => exact ⟨false, rfl, by simp [Terminals.AllPunct, Terminals.tokenList]⟩
    | str x =>
      refine ⟨_, rfl, ?_⟩
      simp only [Terminals.AllPunct, Terminals.tokenList, ne_eq, List.map_eq_nil_iff, List.forall_mem_map, decide_eq_true_eq,
        List.all_eq_true]
      refine and_congr_right fun _ => forall₂_congr fun c _ => ?_
      exact mem_iff_infix c punctuation
    | toks l =>
      refine ⟨_, rfl, ?_⟩
      simp only [Terminals.AllPunct, Terminals.tokenList, ne_eq, List.map_eq_nil_iff, List.forall_mem_map, decide_eq_true_eq,
        List.all_eq_true, inPunct]
      exact Iff.rfl
  have he : ∃ b, isEmpty g v = .ok b ∧ (b = true ↔ Terminals.NoTokens t) := by
    unfold isEmpty
    rw [ht]
    cases t with
    | none => exact ⟨true, rfl, by simp [Terminals.NoTokens, Terminals.tokenList]⟩
    | str x => exact ⟨_, rfl, by simp [Terminals.NoTokens, Terminals.tokenList]⟩
    | toks l => exact ⟨_, rfl, by simp [Terminals.NoTokens, Terminals.tokenList]⟩
  obtain ⟨bp, hp, hp'⟩ := hp
  obtain ⟨be, he, he'⟩ := he
  have hedge : (∀ w, hasEdge g.graph v w = false) ↔ m = [] := by
    unfold hasEdge succRef
    rw [hm]
    constructor
    · intro h
      cases m with
      | nil => rfl
      | cons x m =>
        have := h x.1
        simp [AD.get?_cons] at this
    · rintro rfl w
      rfl
  have hT2 : ∃ b, isTerminal g v wp we = .ok b ∧ (b = true ↔ m = [] ∧ (wp = true ∨ ¬ bp = true) ∧ (we = true ∨ ¬ be = true)) := by
    unfold isTerminal
    rw [AD.get_eq hm]
    dsimp only
    by_cases hmn : m = []
    · rw [if_neg (by simpa using hmn), hp, he]
      cases wp <;> cases bp <;> cases we <;> cases be <;> exact ⟨_, rfl, by simp [hmn]⟩
    · rw [if_pos hmn]; exact ⟨_, rfl, by simp [hmn]⟩
  obtain ⟨b, hb, hb'⟩ := hT2
  rw [← hedge, hp', he'] at hb'
  exact ⟨t, b, ht, hb, hb'⟩

/-- C28.  `terminals` lists all terminals of the graph in the order of its nodes. -/
theorem terminals_exact {g : DG κ} (hg : Built g) (wp we : Bool) :
    terminals g wp we = .ok ((nodes g.graph).filter fun v => decide (isTerminal g v wp we = .ok true)) := by
  have key : ∀ (l acc : List κ), (∀ v ∈ l, v ∈ nodes g.graph) →
      Py.forIn l acc (fun v l => match isTerminal g v wp we with
        | .error e => .error e
        | .ok t => .ok (if t then l ++ [v] else l)) =
      .ok (acc ++ l.filter fun v => decide (isTerminal g v wp we = .ok true)) := by
    intro l
    induction l with
    | nil => intro acc _; simp [Py.forIn]
    | cons v l ih =>
      intro acc h
      obtain ⟨t, b, _, hb, _⟩ := isTerminal_exact hg (h v (by simp)) wp we
      simp only [Py.forIn, hb, bind, Except.bind]
      rw [ih _ (fun x hx => h x (by simp [hx])), List.filter_cons, hb]
      cases b <;> simp
  exact (key _ [] (fun _ h => h)).trans (by simp)

/-- A terminal, with the default options, is a node without successors. -/
theorem isTerminal_iff {g : DG κ} (v : κ) : isTerminal g v true true = .ok true ↔ successors g.graph v = .ok [] := by
  unfold isTerminal successors
  cases h : g.graph.succ.get? v with
  | none => simp [AD.get, h]
  | some m =>
    rw [AD.get_eq h]
    simp only [AD.keys, Except.ok.injEq, List.map_eq_nil_iff, if_true]
    by_cases hm : m = [] <;> simp [hm]

/-- C28.  When the start node is the root of an ordered tree, the terminals come in left-to-right order. -/
theorem terminal_yield_tree (falsy : κ → Bool) {g : DG κ} (hg : Built g) (n : Option κ) (t : OTree κ)
    (hx : startNode falsy g n = some t.root) (hnd : t.names.Nodup)
    (htn : ∀ x ∈ t.names, x ∈ nodes g.graph)
    (hd : t.Draws fun x => match successors g.graph x with
      | .ok l => l
      | .error _ => [])
    (wp we : Bool) (fuel : Nat) (hf : 2 * (nodes g.graph).length < fuel) :
    terminalYield falsy fuel g n wp we =
      .ok (t.leaves.filter fun x => decide (isTerminal g x wp we = .ok true)) := by
  obtain ⟨⟨s, hr⟩, hT⟩ := hg.rep
  have hsN : nodes g.graph = s.nodes := hr.skeys
  let S : κ → List κ := fun x => match successors g.graph x with
    | .ok l => l
    | .error _ => []
  let P : κ → Bool := fun x => decide (isTerminal g x wp we = .ok true)
  have hok : ∀ x ∈ t.names, successors g.graph x = .ok (S x) ∧ isTerminal g x wp we = .ok (P x) := by
    intro x hx
    have hxn := htn x hx
    obtain ⟨m, hm⟩ := exists_of_mem (d := g.graph.succ) (k := x) hxn
    rw [hsN] at hxn
    obtain ⟨b, hb, _⟩ := isTerminal_ok hr hT hxn wp we
    refine ⟨?_, ?_⟩
    · simp only [S, successors, hm]
    · simp only [P, hb]; cases b <;> simp
  obtain ⟨k, hk⟩ := tree_steps (succs := successors g.graph) (T := fun v => isTerminal g v wp we) S P t [] [] []
    hok hd hnd (by simp)
  obtain ⟨l, e1, _, _⟩ := terminal_yield_reachable falsy hg n t.root hx (htn _ (root_mem_names t)) wp we fuel hf
  rw [e1]
  rw [yield_start falsy fuel g n wp we _ hx] at e1
  -- a larger budget gives the same result
  have hmono : ∀ (f f' : Nat) (s s' : YState κ), f ≤ f' →
      yieldLoop (successors g.graph) (fun v => isTerminal g v wp we) f s = .ok s' →
      yieldLoop (successors g.graph) (fun v => isTerminal g v wp we) f' s = .ok s' := by
    intro f f' s s' hle h
    exact Munkres.whileLoop_mono f f' s s' hle h
  have h2 := hk (fuel + 1)
  have h3 : yieldLoop (successors g.graph) (fun v => isTerminal g v wp we) (fuel + 1)
      (⟨[], [] ++ t.names, [] ++ t.names.filter P⟩ : YState κ) = .ok ⟨[], [] ++ t.names, [] ++ t.names.filter P⟩ := by
    simp [yieldLoop, Py.whileLoop]
  rw [h3] at h2
  split at e1
  · rename_i st hst
    have h4 := hmono fuel (k + (fuel + 1)) _ _ (by omega) hst
    rw [h2] at h4
    simp only [Except.ok.injEq] at h4 e1
    rw [← e1, ← h4]
    simp only [List.nil_append, Except.ok.injEq]
    have hfil : t.names.filter P = t.names.filter (fun x => decide (S x = []) && P x) := by
      apply List.filter_congr
      intro x hx
      by_cases hp : P x = true
      · have hxn := htn x hx
        obtain ⟨m, hm⟩ := exists_of_mem (d := g.graph.succ) (k := x) hxn
        rw [hsN] at hxn
        obtain ⟨b, hb, hb2⟩ := isTerminal_ok hr hT hxn wp we
        have : b = true := by
          simp only [P, hb, decide_eq_true_eq, Except.ok.injEq] at hp; exact hp
        have hse := hb2 this
        have : S x = [] := by
          simp only [S, successors, hm]
          rw [hr.succs x m hm, hse]
        simp [hp, this]
      · simp [hp]
    rw [hfil]
    exact names_filter_leaves S P t hd
  · simp at e1

/-! ### Edges -/

/-- C29.  `add_edge` raises ValueError exactly when an endpoint is missing; otherwise the nodes stay and the
edges are the old ones and the new one. -/
theorem add_edge_checked {g : DG κ} (hg : Built g) (u v : κ) (label : Val) (attr : AD String Val) :
    (u ∉ nodes g.graph ∨ v ∉ nodes g.graph → addEdge g u v label attr = .error .valueError) ∧
    (u ∈ nodes g.graph → v ∈ nodes g.graph → ∃ g', addEdge g u v label attr = .ok g' ∧
      nodes g'.graph = nodes g.graph ∧
      (∀ a b, hasEdge g'.graph a b = true ↔ hasEdge g.graph a b = true ∨ (a = u ∧ b = v)) ∧
      (∀ a b, ¬ (a = u ∧ b = v) → edgeData g'.graph a b = edgeData g.graph a b)) := by
  obtain ⟨⟨s, hr⟩, _⟩ := hg.rep
  have hsN : nodes g.graph = s.nodes := hr.skeys
  constructor
  · intro h
    unfold DaesoGraph.addEdge
    by_cases hu : u ∈ s.nodes
    · rw [if_neg (by rw [not_not]; exact (hr.mem u).2 hu)]
      have hv : v ∉ s.nodes := by rw [hsN] at h; tauto
      rw [if_pos (fun hc => hv ((hr.mem v).1 hc))]
    · rw [if_pos (fun hc => hu ((hr.mem u).1 hc))]
  · intro hu hv
    rw [hsN] at hu hv
    unfold DaesoGraph.addEdge
    rw [if_neg (by rw [not_not]; exact (hr.mem u).2 hu), if_neg (by rw [not_not]; exact (hr.mem v).2 hv)]
    obtain ⟨g1, e1, e2⟩ := hr.putEdge u v (attr ++ [("label", label)]) hu hv
    rw [e1]
    have hnodes : (specPut s u v (attr ++ [("label", label)])).nodes = s.nodes := by
      unfold specPut; split <;> rfl
    have hedges : ∀ a b, (a, b) ∈ (specPut s u v (attr ++ [("label", label)])).edges ↔
        (a, b) ∈ s.edges ∨ (a = u ∧ b = v) := by
      intro a b
      unfold specPut
      split
      · rename_i he
        simp only [OGraph.setData]
        constructor
        · exact Or.inl
        · rintro (h | ⟨rfl, rfl⟩)
          · exact h
          · exact he
      · simp [OGraph.setData]
    refine ⟨_, rfl, ?_, ?_, ?_⟩
    · have h1 : nodes g1 = _ := e2.skeys
      show nodes g1 = _
      rw [h1, hnodes, hsN]
    · intro a b
      show (succRef g1 a b).isSome = true ↔ (succRef g.graph a b).isSome = true ∨ _
      rw [e2.ref_iff, hedges, hr.ref_iff]
    · intro a b hab
      show (succRef g1 a b).map g1.eheap = (succRef g.graph a b).map g.graph.eheap
      cases h1 : succRef g.graph a b with
      | none =>
        have h2 : ¬ (a, b) ∈ s.edges := by rw [← hr.ref_iff, h1]; simp
        have h3 : ¬ (succRef g1 a b).isSome := by
          rw [e2.ref_iff, hedges]; rintro (h | h)
          · exact h2 h
          · exact hab h
        have h4 : succRef g1 a b = none := by simpa using h3
        rw [h4]; rfl
      | some r =>
        have h2 : (a, b) ∈ s.edges := by rw [← hr.ref_iff, h1]; rfl
        obtain ⟨r', h3⟩ := Option.isSome_iff_exists.1 ((e2.ref_iff a b).2 ((hedges a b).2 (Or.inl h2)))
        rw [h3, Option.map_some, Option.map_some, e2.data a b r' h3, hr.data a b r h1]
        unfold specPut
        split <;> simp [OGraph.setData, hab]

/-- C29.  In every graph built through the API, edges join existing nodes. -/
theorem edges_join_nodes {g : DG κ} (hg : Built g) (u v : κ) (h : hasEdge g.graph u v = true) :
    u ∈ nodes g.graph ∧ v ∈ nodes g.graph := by
  obtain ⟨⟨s, hr⟩, _⟩ := hg.rep
  have hsN : nodes g.graph = s.nodes := hr.skeys
  rw [hsN]
  exact hr.ends (u, v) ((hr.ref_iff u v).1 h)

/-- C29.  `add_edges_from` adds exactly the edges before the first one with a missing endpoint, and raises
ValueError if there is such an edge. -/
theorem add_edges_from_prefix {g : DG κ} (hg : Built g) (label : Val) (attr : AD String Val)
    (es : List (κ × κ × AD String Val)) :
    let good := es.takeWhile fun e => decide (e.1 ∈ nodes g.graph ∧ e.2.1 ∈ nodes g.graph)
    let r := addEdgesFrom g label attr es
    nodes r.1.graph = nodes g.graph ∧
    (∀ a b, hasEdge r.1.graph a b = true ↔ hasEdge g.graph a b = true ∨ ∃ d, (a, b, d) ∈ good) ∧
    (r.2 = if good.length = es.length then none else some .valueError) := by
  induction es generalizing g with
  | nil => simp [DaesoGraph.addEdgesFrom]
  | cons e es ih =>
    obtain ⟨u, v, dd⟩ := e
    intro good r
    obtain ⟨⟨s, hr⟩, _⟩ := hg.rep
    have hsN : nodes g.graph = s.nodes := hr.skeys
    by_cases hgood : u ∈ nodes g.graph ∧ v ∈ nodes g.graph
    · have hb := Built.addEdgesFrom (g := g) label attr [(u, v, dd)] hg
      obtain ⟨hu, hv⟩ := hgood
      have hu' := hu
      have hv' := hv
      rw [hsN] at hu' hv'
      obtain ⟨g1, e1, e2⟩ := hr.putEdge u v ((attr ++ [("label", label)]) ++ dd) hu' hv'
      have hstep : addEdgesFrom g label attr ((u, v, dd) :: es) =
          addEdgesFrom { g with graph := g1 } label attr es := by
        rw [DaesoGraph.addEdgesFrom, if_neg (by rw [not_not]; exact (hr.mem u).2 hu'),
          if_neg (by rw [not_not]; exact (hr.mem v).2 hv'), e1]
      have hg1 : (addEdgesFrom g label attr [(u, v, dd)]).1 = { g with graph := g1 } := by
        rw [DaesoGraph.addEdgesFrom, if_neg (by rw [not_not]; exact (hr.mem u).2 hu'),
          if_neg (by rw [not_not]; exact (hr.mem v).2 hv'), e1]
        rfl
      rw [hg1] at hb
      have hnodes1 : nodes g1 = nodes g.graph := by
        have h1 : nodes g1 = _ := e2.skeys
        rw [h1, hsN]; unfold specPut; split <;> rfl
      have hedges : ∀ a b, hasEdge g1 a b = true ↔ hasEdge g.graph a b = true ∨ (a = u ∧ b = v) := by
        intro a b
        unfold hasEdge
        rw [e2.ref_iff, hr.ref_iff]
        unfold specPut
        split
        · rename_i he
          simp only [OGraph.setData]
          constructor
          · exact Or.inl
          · rintro (h | ⟨rfl, rfl⟩)
            · exact h
            · exact he
        · simp [OGraph.setData]
      have hih := ih hb
      dsimp only at hih
      rw [hnodes1] at hih
      have hgd : good = (u, v, dd) :: es.takeWhile fun e => decide (e.1 ∈ nodes g.graph ∧ e.2.1 ∈ nodes g.graph) := by
        show List.takeWhile _ _ = _
        rw [List.takeWhile_cons, if_pos (by simp [hu, hv])]
      have hrr : r = addEdgesFrom { g with graph := g1 } label attr es := hstep
      rw [hrr, hgd]
      refine ⟨hih.1, ?_, ?_⟩
      · intro a b
        rw [hih.2.1, hedges]
        simp only [List.mem_cons, Prod.mk.injEq]
        constructor
        · rintro ((h | ⟨rfl, rfl⟩) | ⟨d, h⟩)
          · exact Or.inl h
          · exact Or.inr ⟨dd, Or.inl ⟨rfl, rfl, rfl⟩⟩
          · exact Or.inr ⟨d, Or.inr h⟩
        · rintro (h | ⟨d, ⟨rfl, rfl, rfl⟩ | h⟩)
          · exact Or.inl (Or.inl h)
          · exact Or.inl (Or.inr ⟨rfl, rfl⟩)
          · exact Or.inr ⟨d, h⟩
      · rw [hih.2.2]; simp
    · have hgd : good = [] := by
        show List.takeWhile _ _ = _
        rw [List.takeWhile_cons, if_neg (by simpa using hgood)]
      have hrr : r = (g, some .valueError) := by
        show addEdgesFrom g label attr ((u, v, dd) :: es) = _
        rw [DaesoGraph.addEdgesFrom]
        by_cases hu : u ∈ s.nodes
        · have hv : v ∉ s.nodes := by rw [hsN] at hgood; tauto
          rw [if_neg (by rw [not_not]; exact (hr.mem u).2 hu), if_pos (fun hc => hv ((hr.mem v).1 hc))]
        · rw [if_pos (fun hc => hu ((hr.mem u).1 hc))]
      rw [hrr, hgd]
      simp

/-! ### Token strings -/

/-- C30.  Setting and getting a node's token string gives the string back, for every string. -/
theorem node_token_string_roundtrip (s : List Char) : getNodeTokenString (setNodeTokenString s) = s :=
  join_splitSpace s

/-- The tokens come back too, if there are any and none contains a space. -/
theorem node_tokens_roundtrip (ts : List (List Char)) (hne : ts ≠ []) (h : ∀ t ∈ ts, ' ' ∉ t) :
    setNodeTokenString (getNodeTokenString ts) = ts := splitSpace_join hne h

/-- The empty token list does not survive: the empty string gives one empty token, which makes an empty node
non-empty. -/
theorem node_tokens_empty : setNodeTokenString (getNodeTokenString []) = [[]] := rfl

private theorem join_normalised {ws : Char → Bool} : ∀ (ts : List (List Char)),
    (∀ t ∈ ts, t ≠ [] ∧ ∀ c ∈ t, ws c = false) →
    (∀ c ∈ join ts, ws c = true → c = ' ') ∧
    (∀ a c d b, join ts = a ++ c :: d :: b → ¬ (ws c = true ∧ ws d = true)) ∧
    (∀ c, (join ts).head? = some c → ws c = false) ∧ (∀ c, (join ts).getLast? = some c → ws c = false) := by
  intro ts
  induction ts with
  | nil => intro _; simp [join]
  | cons t ts ih =>
    intro h
    obtain ⟨hne, hw⟩ := h t (by simp)
    have hrest : ∀ t' ∈ ts, t' ≠ [] ∧ ∀ c ∈ t', ws c = false := fun t' ht' => h t' (by simp [ht'])
    obtain ⟨i1, i2, i3, i4⟩ := ih hrest
    cases ts with
    | nil =>
      simp only [join]
      refine ⟨?_, ?_, ?_, ?_⟩
      · intro c hc hws; rw [hw c hc] at hws; simp at hws
      · intro a c d b he hcd
        have : c ∈ t := by rw [he]; simp
        rw [hw c this] at hcd; simp at hcd
      · intro c hc; exact hw c (List.mem_of_head? hc)
      · intro c hc; exact hw c (List.mem_of_getLast? hc)
    | cons t' ts =>
      have hj : join (t :: t' :: ts) = t ++ ' ' :: join (t' :: ts) := rfl
      have hjne : join (t' :: ts) ≠ [] := by
        have := (hrest t' (by simp)).1
        cases ts with
        | nil => simpa [join] using this
        | cons t'' ts => simp [join]
      rw [hj]
      refine ⟨?_, ?_, ?_, ?_⟩
      · intro c hc hws
        rw [List.mem_append, List.mem_cons] at hc
        rcases hc with hc | rfl | hc
        · rw [hw c hc] at hws; simp at hws
        · rfl
        · exact i1 c hc hws
      · intro a c d b he hcd
        rw [List.append_eq_append_iff] at he
        rcases he with ⟨r, e1, e2⟩ | ⟨r, e1, e2⟩
        · -- a = t ++ r
          cases r with
          | nil =>
            simp only [List.nil_append, List.cons.injEq] at e2
            have : ws d = false := i3 d (by rw [e2.2]; rfl)
            rw [this] at hcd; simp at hcd
          | cons r0 r =>
            simp only [List.cons_append, List.cons.injEq] at e2
            exact i2 r c d b e2.2 hcd
        · -- t = a ++ r
          cases r with
          | nil =>
            simp only [List.nil_append, List.cons.injEq] at e2
            have : ws d = false := i3 d (by rw [← e2.2]; rfl)
            rw [this] at hcd; simp at hcd
          | cons r0 r =>
            simp only [List.cons_append, List.cons.injEq] at e2
            have : c ∈ t := by rw [e1, e2.1]; simp
            rw [hw c this] at hcd; simp at hcd
      · intro c hc
        rw [List.head?_append_of_ne_nil _ hne] at hc
        exact hw c (List.mem_of_head? hc)
      · intro c hc
        rw [List.getLast?_append_of_ne_nil _ (by simp)] at hc
        rw [List.getLast?_cons_of_ne_nil hjne] at hc
        exact i4 c hc

private theorem join_splitWs {ws : Char → Bool} (n : Nat) : ∀ (s : List Char), s.length ≤ n →
    Normalised ws s → join (splitWs ws s) = s := by
  induction n with
  | zero => intro s hl _; have : s = [] := List.length_eq_zero_iff.1 (by omega); subst this; rfl
  | succ n ih =>
    intro s hl h
    cases s with
    | nil => rfl
    | cons c cs =>
      obtain ⟨h1, h2, h3, h4⟩ := h
      have hc : ws c = false := h3 c rfl
      cases cs with
      | nil => simp [splitWs, hc, join]
      | cons d cs =>
        have hlast : ∀ x, (d :: cs).getLast? = some x → ws x = false := by
          intro x hx; apply h4 x; rw [List.getLast?_cons_of_ne_nil (by simp)]; exact hx
        by_cases hd : ws d = true
        · have hds : d = ' ' := h1 d (by simp) hd
          cases cs with
          | nil => have := hlast d rfl; rw [hd] at this; simp at this
          | cons e cs =>
            have he : ws e = false := by
              by_contra hcon
              exact h2 [c] d e cs rfl ⟨hd, by simpa using hcon⟩
            have hN : Normalised ws (e :: cs) := by
              refine ⟨fun x hx => h1 x (by simp at hx ⊢; tauto), ?_, ?_, ?_⟩
              · intro a x y b hxy; exact h2 (c :: d :: a) x y b (by simp [hxy])
              · intro x hx; simp at hx; subst hx; exact he
              · intro x hx
                apply hlast x
                rw [List.getLast?_cons_of_ne_nil (by simp)]; exact hx
            have hi := ih (e :: cs) (by simp at hl ⊢; omega) hN
            have hsp : splitWs ws (c :: d :: e :: cs) = [c] :: splitWs ws (e :: cs) := by
              rw [splitWs, if_neg (by simp [hc])]
              simp only [hd, if_true]
              rw [splitWs_skip hd]
            rw [hsp]
            cases hw : splitWs ws (e :: cs) with
            | nil => rw [hw] at hi; simp [join] at hi
            | cons w wl =>
              rw [hw] at hi
              show [c] ++ ' ' :: join (w :: wl) = _
              rw [hi, hds]; rfl
        · have hd' : ws d = false := by simpa using hd
          have hN : Normalised ws (d :: cs) := by
            refine ⟨fun x hx => h1 x (by simp at hx ⊢; tauto), ?_, ?_, hlast⟩
            · intro a x y b hxy; exact h2 (c :: a) x y b (by simp [hxy])
            · intro x hx; simp at hx; subst hx; exact hd'
          have hi := ih (d :: cs) (by simp at hl ⊢; omega) hN
          have hsp : splitWs ws (c :: d :: cs) = match splitWs ws (d :: cs) with
              | t :: ts => (c :: t) :: ts
              | [] => [[c]] := by
            rw [splitWs, if_neg (by simp [hc])]
            simp only [hd', Bool.false_eq_true, if_false]
            try rfl
          rw [hsp]
          cases hw : splitWs ws (d :: cs) with
          | nil => rw [hw] at hi; simp [join] at hi
          | cons w wl =>
            rw [hw] at hi
            cases wl with
            | nil => simp only [join] at hi ⊢; rw [hi]
            | cons w' wl => simp only [join, List.cons_append] at hi ⊢; rw [hi]

/-- C30.  Setting and getting the graph's token string gives a normalised string with the same words, and gives
the string itself exactly when it is normalised. -/
theorem graph_token_string_roundtrip (ws : Char → Bool) (hsp : ws ' ' = true) (s : List Char) :
    Normalised ws (getGraphTokenString (setGraphTokenString ws s)) ∧
    setGraphTokenString ws (getGraphTokenString (setGraphTokenString ws s)) = setGraphTokenString ws s ∧
    (getGraphTokenString (setGraphTokenString ws s) = s ↔ Normalised ws s) := by
  have h1 : Normalised ws (join (splitWs ws s)) := join_normalised _ (splitWs_words ws s)
  refine ⟨h1, splitWs_join hsp _ (splitWs_words ws s), ?_⟩
  constructor
  · intro h; rw [← h]; exact h1
  · exact join_splitWs s.length s (le_refl _)

example : getGraphTokenString (setGraphTokenString (fun c => c = ' ' || c = '\t') " de  kat\tzit ".toList) =
    "de kat zit".toList := by decide +kernel

/-! ### A concrete case -/

/-- Add a node, or leave the graph as it is if that fails. -/
def put (g : DG String) (n : String) (tokens : Option (List String)) : DG String :=
  match addNode g n .none tokens none [] with
  | .ok g' => g'
  | .error _ => g

private theorem built_put {g : DG String} (h : Built g) (n : String) (tokens : Option (List String)) :
    Built (put g n tokens) := by
  unfold put
  split
  · rename_i e; exact Built.addNode h e
  · exact h

/-- A graph with a cycle reaching two terminals. -/
def sample : DG String :=
  (addEdgesFrom (put (put (put (put (empty none (some "s")) "s" none) "np" none) "w1" (some ["de"])) "w2" (some ["."]))
    .none [] [("s", "np", []), ("np", "s", []), ("np", "w1", []), ("s", "w2", [])]).1

example : Built sample :=
  Built.addEdgesFrom _ _ _ (built_put (built_put (built_put (built_put (Built.empty none (some "s")) _ _) _ _) _ _) _ _)

example : terminalYield (fun s => s = "") 20 sample none true true = .ok ["w1", "w2"] ∧
    terminalYield (fun s => s = "") 20 sample none false true = .ok ["w1"] ∧
    nodes sample.graph = ["s", "np", "w1", "w2"] := by decide +kernel

end Verif.Props.DaesoGraph
