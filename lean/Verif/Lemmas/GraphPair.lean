import Verif.Lemmas.Graph
import Verif.Model.GraphPair
import Verif.Spec.NodeAlignment

/-! Lemmas about the alignments of graph pairs. -/
namespace Verif.GraphPair
open Verif Verif.Graph Verif.Spec
set_option linter.unusedSectionVars false

variable {κ ρ : Type} [DecidableEq κ]

/-- The graph represents the alignment `M`; only the nodes in `P` may be without an edge. -/
structure Al (g : G κ ρ) (M : Alignment κ ρ) (P : κ → Prop) : Prop where
  ex : ∃ s, Rep g s ∧ (∀ a b r, M a b = some r ↔ (a, b) ∈ s.edges ∧ s.data a b = [("relation", r)]) ∧
    (∀ a b, (a, b) ∈ s.edges → (M a b).isSome) ∧
    (∀ n, n ∈ s.nodes → P n ∨ ∃ b, (n, b) ∈ s.edges ∨ (b, n) ∈ s.edges)

theorem Al.empty : Al (Graph.empty : G κ ρ) Alignment.none (fun _ => False) :=
  ⟨_, Rep.empty, by simp [Alignment.none], by simp, by simp⟩

theorem Al.mono {g : G κ ρ} {M : Alignment κ ρ} {P Q : κ → Prop} (h : Al g M P) (hPQ : ∀ n, P n → Q n) : Al g M Q := by
  obtain ⟨s, h1, h2, h3, h4⟩ := h.ex
  exact ⟨s, h1, h2, h3, fun n hn => (h4 n hn).imp (hPQ n) id⟩

theorem edges_addNode (s : OGraph κ ρ) (n : κ) : (s.addNode n).edges = s.edges := by
  unfold OGraph.addNode; split <;> rfl

theorem data_addNode (s : OGraph κ ρ) (n : κ) : (s.addNode n).data = s.data := by
  unfold OGraph.addNode; split <;> rfl

theorem edges_addEdge (s : OGraph κ ρ) (u v : κ) (d : AD String ρ) (e : κ × κ) :
    e ∈ (s.addEdge u v d).edges ↔ e ∈ s.edges ∨ e = (u, v) := by
  unfold OGraph.addEdge
  dsimp only
  split
  · rename_i h
    simp only [OGraph.setData]
    simp only [edges_addNode] at h ⊢
    constructor
    · exact Or.inl
    · rintro (h1 | h1)
      · exact h1
      · exact h1 ▸ h
  · simp [OGraph.setData, edges_addNode]

theorem data_addEdge (s : OGraph κ ρ) (u v : κ) (r : ρ) (hd : (u, v) ∈ s.edges → ∃ r', s.data u v = [("relation", r')])
    (a b : κ) :
    (s.addEdge u v [("relation", r)]).data a b =
      if a = u ∧ b = v then [("relation", r)] else s.data a b := by
  unfold OGraph.addEdge
  dsimp only
  split
  · rename_i h
    simp only [edges_addNode] at h
    obtain ⟨r', hr'⟩ := hd h
    simp only [OGraph.setData, OGraph.merge, List.foldl_cons, List.foldl_nil, data_addNode, hr']
    rfl
  · simp only [OGraph.setData, OGraph.merge, List.foldl_cons, List.foldl_nil, data_addNode]
    rfl

theorem nodes_addEdge (s : OGraph κ ρ) (u v : κ) (d : AD String ρ) (n : κ) :
    n ∈ (s.addEdge u v d).nodes ↔ n ∈ s.nodes ∨ n = u ∨ n = v := by
  unfold OGraph.addEdge
  dsimp only
  split <;> simp only [OGraph.setData, nodes_addNode, or_assoc]

theorem Al.add {g : G κ ρ} {M : Alignment κ ρ} {P : κ → Prop} (h : Al g M P) (u v : κ) (r : ρ) :
    ∃ g', addEdge g u v [("relation", r)] = .ok g' ∧ Al g' (M.put u v r) (fun n => P n ∧ n ≠ u ∧ n ≠ v) := by
  obtain ⟨s, h1, h2, h3, h4⟩ := h.ex
  obtain ⟨g', e1, e2⟩ := h1.addEdge u v [("relation", r)]
  refine ⟨g', e1, _, e2, ?_, ?_, ?_⟩
  · intro a b r'
    rw [edges_addEdge, data_addEdge s u v r (by
      intro he
      obtain ⟨r', hr'⟩ := Option.isSome_iff_exists.1 (h3 u v he)
      exact ⟨r', ((h2 u v r').1 hr').2⟩)]
    unfold Alignment.put
    by_cases hab : a = u ∧ b = v
    · simp [hab]
    · rw [if_neg hab, if_neg hab, h2]
      have : ¬ (a, b) = (u, v) := by simpa using hab
      simp [this]
  · intro a b hab
    rw [edges_addEdge] at hab
    unfold Alignment.put
    split
    · rfl
    · rename_i hn
      rcases hab with hab | hab
      · exact h3 a b hab
      · exact absurd (by simpa using hab) hn
  · intro n hn
    rw [nodes_addEdge] at hn
    simp only [edges_addEdge]
    by_cases hu : n = u
    · subst hu; right; exact ⟨v, Or.inl (Or.inr rfl)⟩
    · by_cases hv : n = v
      · subst hv; right; exact ⟨u, Or.inr (Or.inr rfl)⟩
      · rcases hn with hn | hn | hn
        · rcases h4 n hn with h | ⟨b, h⟩
          · exact Or.inl ⟨h, hu, hv⟩
          · right; exact ⟨b, h.imp Or.inl Or.inl⟩
        · exact absurd hn hu
        · exact absurd hn hv

theorem Al.edge {g : G κ ρ} {M : Alignment κ ρ} {P : κ → Prop} (h : Al g M P) {s : OGraph κ ρ} (hr : Rep g s) (a b : κ) :
    (a, b) ∈ s.edges ↔ (M a b).isSome := by
  obtain ⟨s', h1, h2, h3, h4⟩ := h.ex
  rw [← hr.ref_iff, h1.ref_iff]
  constructor
  · exact h3 a b
  · intro hm
    obtain ⟨r, hr⟩ := Option.isSome_iff_exists.1 hm
    exact ((h2 a b r).1 hr).1

theorem Al.remove {g : G κ ρ} {M : Alignment κ ρ} {P : κ → Prop} (h : Al g M P) (u v : κ) (hm : (M u v).isSome) :
    ∃ g', removeEdge g u v = .ok g' ∧ Al g' (M.drop u v) (fun n => P n ∨ n = u ∨ n = v) := by
  have hh := h
  obtain ⟨s, h1, h2, h3, h4⟩ := h.ex
  obtain ⟨g', e1, e2, _⟩ := h1.removeEdge u v ((hh.edge h1 u v).2 hm)
  refine ⟨g', e1, _, e2, ?_, ?_, ?_⟩
  · intro a b r'
    simp only [OGraph.removeEdge, List.mem_filter, ne_eq, decide_eq_true_eq, Prod.mk.injEq]
    unfold Alignment.drop
    split
    · rename_i hab; simp [hab]
    · rename_i hab; rw [h2]; simp [hab]
  · intro a b hab
    simp only [OGraph.removeEdge, List.mem_filter, ne_eq, decide_eq_true_eq, Prod.mk.injEq] at hab
    unfold Alignment.drop
    rw [if_neg hab.2]; exact h3 a b hab.1
  · intro n hn
    have hn' : n ∈ s.nodes := hn
    rcases h4 n hn' with h | ⟨b, h⟩
    · exact Or.inl (Or.inl h)
    · simp only [OGraph.removeEdge, List.mem_filter, ne_eq, decide_eq_true_eq, Prod.mk.injEq]
      by_cases hu : n = u
      · exact Or.inl (Or.inr (Or.inl hu))
      · by_cases hv : n = v
        · exact Or.inl (Or.inr (Or.inr hv))
        · right; exact ⟨b, h.imp (fun h => ⟨h, by simp [hu]⟩) (fun h => ⟨h, by simp [hv]⟩)⟩

theorem Al.remove_absent {g : G κ ρ} {M : Alignment κ ρ} {P : κ → Prop} (h : Al g M P) (u v : κ) (hm : M u v = none) :
    removeEdge g u v = .error .networkXError := by
  obtain ⟨s, h1, _⟩ := h.ex
  refine removeEdge_absent h1 u v ?_
  rw [h.edge h1, hm]; simp

theorem Rep.degree {g : G κ ρ} {s : OGraph κ ρ} (h : Rep g s) {n : κ} (hn : n ∈ s.nodes) :
    degree g n = .ok ((s.successors n).length + (s.predecessors n).length) := by
  obtain ⟨m, hm⟩ := exists_of_mem (d := g.succ) (k := n) (by rw [h.skeys]; exact hn)
  obtain ⟨p, hp⟩ := exists_of_mem (d := g.pred) (k := n) (by rw [h.pkeys]; exact hn)
  unfold Graph.degree
  rw [hm, hp, ← h.succs n m hm, ← h.preds n p hp]
  simp [AD.keys]

theorem Al.prune {g : G κ ρ} {M : Alignment κ ρ} {P : κ → Prop} (h : Al g M P) (x : κ) :
    ∃ g', prune g x = .ok g' ∧ Al g' M (fun n => P n ∧ n ≠ x) := by
  obtain ⟨s, h1, h2, h3, h4⟩ := h.ex
  unfold GraphPair.prune
  by_cases hx : x ∈ s.nodes
  · rw [if_pos ((h1.mem x).2 hx), Rep.degree h1 hx]
    dsimp only
    by_cases hd : (s.successors x).length + (s.predecessors x).length = 0
    · rw [if_pos hd]
      obtain ⟨g', e1, e2⟩ := h1.removeNode x hx
      have hs : s.successors x = [] := List.length_eq_zero_iff.1 (by omega)
      have hp : s.predecessors x = [] := List.length_eq_zero_iff.1 (by omega)
      have hE : (s.removeNode x).edges = s.edges := by
        unfold OGraph.removeNode
        dsimp only
        rw [List.filter_eq_self]
        rintro ⟨a, b⟩ hab
        simp only [ne_eq, decide_eq_true_eq]
        constructor
        · rintro rfl
          have := (mem_successors s a b).2 hab
          rw [hs] at this; simp at this
        · rintro rfl
          have := (mem_predecessors s a b).2 hab
          rw [hp] at this; simp at this
      rw [e1]
      refine ⟨g', rfl, _, e2, ?_, ?_, ?_⟩
      · rw [hE]; exact h2
      · rw [hE]; exact h3
      · rw [hE]
        intro n hn
        simp only [OGraph.removeNode, List.mem_filter, ne_eq, decide_eq_true_eq] at hn
        exact (h4 n hn.1).imp (fun h => ⟨h, hn.2⟩) id
    · rw [if_neg hd]
      refine ⟨g, rfl, s, h1, h2, h3, ?_⟩
      intro n hn
      by_cases hnx : n = x
      · subst hnx
        right
        by_cases hs : s.successors n = []
        · have hp : s.predecessors n ≠ [] := by intro hp; rw [hs, hp] at hd; simp at hd
          obtain ⟨b, hb⟩ := List.exists_mem_of_ne_nil _ hp
          exact ⟨b, Or.inr ((mem_predecessors s b n).1 hb)⟩
        · obtain ⟨b, hb⟩ := List.exists_mem_of_ne_nil _ hs
          exact ⟨b, Or.inl ((mem_successors s n b).1 hb)⟩
      · exact (h4 n hn).imp (fun h => ⟨h, hnx⟩) id
  · rw [if_neg (fun hc => hx ((h1.mem x).1 hc))]
    refine ⟨g, rfl, s, h1, h2, h3, ?_⟩
    intro n hn
    exact (h4 n hn).imp (fun h => ⟨h, fun hc => hx (hc ▸ hn)⟩) id

theorem Al.del {g : G κ ρ} {M : Alignment κ ρ} (h : Al g M (fun _ => False)) (u v : κ) (hm : (M u v).isSome) :
    ∃ g', delAlign g u v = .ok g' ∧ Al g' (M.drop u v) (fun _ => False) := by
  obtain ⟨g1, e1, h1⟩ := h.remove u v hm
  obtain ⟨g2, e2, h2⟩ := h1.prune u
  obtain ⟨g3, e3, h3⟩ := h2.prune v
  refine ⟨g3, by simp only [delAlign, bind, Except.bind, e1, e2, e3], h3.mono ?_⟩
  rintro n ⟨⟨h | h | h, h'⟩, h''⟩
  · exact h
  · exact h' h
  · exact h'' h

theorem Al.del_absent {g : G κ ρ} {M : Alignment κ ρ} {P : κ → Prop} (h : Al g M P) (u v : κ) (hm : M u v = none) :
    delAlign g u v = .error .networkXError := by
  simp only [delAlign, bind, Except.bind, h.remove_absent u v hm]

theorem Al.lookup {g : G κ ρ} {M : Alignment κ ρ} {P : κ → Prop} (h : Al g M P) (a b : κ) :
    (do
      let m ← g.succ.get a
      let r ← m.get b
      (g.eheap r).get "relation" : Py ρ) =
      match M a b with
      | some r => .ok r
      | none => .error .keyError := by
  obtain ⟨s, h1, h2, h3, h4⟩ := h.ex
  simp only [bind, Except.bind]
  cases hm : M a b with
  | some r =>
    obtain ⟨he, hd⟩ := (h2 a b r).1 hm
    obtain ⟨x, hx⟩ := Option.isSome_iff_exists.1 ((h1.ref_iff a b).2 he)
    have hdat := h1.data a b x hx
    unfold succRef at hx
    cases hma : g.succ.get? a with
    | none => rw [hma] at hx; simp at hx
    | some m =>
      rw [hma] at hx
      simp only [Option.bind_some] at hx
      rw [AD.get_eq hma]
      dsimp only
      rw [AD.get_eq hx]
      dsimp only
      rw [AD.get_eq (v := r)]
      rw [hdat, hd]; rfl
  | none =>
    have hn : ¬ (succRef g a b).isSome := by
      rw [h1.ref_iff, h.edge h1, hm]; simp
    unfold succRef at hn
    cases hma : g.succ.get? a with
    | none => simp [AD.get, hma]
    | some m =>
      rw [hma] at hn
      simp only [Option.bind_some, Option.not_isSome_iff_eq_none] at hn
      rw [AD.get_eq hma]
      simp [AD.get, hn]

theorem Al.get {g : G κ ρ} {M : Alignment κ ρ} {P : κ → Prop} (h : Al g M P) (a b : κ) :
    getAlign g a b = .ok (M a b) := by
  unfold getAlign
  rw [h.lookup]
  cases M a b <;> rfl

theorem mem_edges {g : G κ ρ} {s : OGraph κ ρ} (h : Rep g s) (e : κ × κ) : e ∈ edges g ↔ e ∈ s.edges := by
  have hwf : g.succ.keys.Nodup := by rw [h.skeys]; exact h.nodup
  rw [← h.ref_iff e.1 e.2]
  unfold edges succRef
  simp only [List.mem_flatMap, List.mem_map]
  constructor
  · rintro ⟨⟨u, m⟩, hum, v, hv, rfl⟩
    dsimp only at hv ⊢
    rw [AD.get?_of_mem hwf hum, Option.bind_some, ← AD.mem_keys_iff]
    exact hv
  · intro hs
    cases hm : g.succ.get? e.1 with
    | none => rw [hm] at hs; simp at hs
    | some m =>
      rw [hm, Option.bind_some, ← AD.mem_keys_iff] at hs
      exact ⟨(e.1, m), AD.mem_of_get? hm, e.2, hs, rfl⟩

theorem edges_nodup {g : G κ ρ} {s : OGraph κ ρ} (h : Rep g s) : (edges g).Nodup := by
  have hwf : g.succ.keys.Nodup := by rw [h.skeys]; exact h.nodup
  unfold edges
  rw [List.nodup_flatMap]
  refine ⟨?_, ?_⟩
  · rintro ⟨u, m⟩ hum
    dsimp only
    refine List.Nodup.map (fun a b hab => (Prod.mk.inj hab).2) ?_
    rw [h.succs u m (AD.get?_of_mem hwf hum)]
    exact successors_nodup h u
  · unfold AD.keys at hwf
    rw [List.Nodup, List.pairwise_map] at hwf
    refine hwf.imp ?_
    intro x y hxy
    rw [Function.onFun, List.disjoint_left]
    simp only [List.mem_map]
    rintro e ⟨v, _, rfl⟩ ⟨w, _, hw⟩
    exact hxy (Prod.mk.inj hw).1.symm

theorem Al.all {g : G κ ρ} {M : Alignment κ ρ} {P : κ → Prop} (h : Al g M P) :
    ∃ l, alignmentsAll g = .ok l ∧ l.map Prod.fst = edges g ∧ (l.map Prod.fst).Nodup ∧
      ∀ a b r, ((a, b), r) ∈ l ↔ M a b = some r := by
  obtain ⟨s, h1, h2, h3, h4⟩ := h.ex
  have key : ∀ (es : List (κ × κ)) (l0 : List ((κ × κ) × ρ)), (∀ e ∈ es, e ∈ s.edges) →
      (∀ a b r, ((a, b), r) ∈ l0 → M a b = some r) →
      ∃ l, Py.forIn es l0 (fun e l =>
        match edgeData g e.1 e.2 with
        | none => .error .keyError
        | some d => match d.get "relation" with
          | .error er => .error er
          | .ok r => .ok (l ++ [(e, r)])) = .ok l ∧ l.map Prod.fst = l0.map Prod.fst ++ es ∧
          ∀ a b r, ((a, b), r) ∈ l → M a b = some r := by
    intro es
    induction es with
    | nil => intro l0 _ hl0; exact ⟨l0, rfl, by simp, hl0⟩
    | cons e es ih =>
      intro l0 hes hl0
      have he := hes e (by simp)
      obtain ⟨r, hr⟩ := Option.isSome_iff_exists.1 (h3 e.1 e.2 he)
      obtain ⟨_, hd⟩ := (h2 e.1 e.2 r).1 hr
      obtain ⟨x, hx⟩ := Option.isSome_iff_exists.1 ((h1.ref_iff e.1 e.2).2 he)
      have hdat := h1.data _ _ x hx
      obtain ⟨l, i1, i2, i3⟩ := ih (l0 ++ [(e, r)]) (fun e' he' => hes e' (by simp [he'])) (by
        intro a b r' hm
        simp only [List.mem_append, List.mem_singleton] at hm
        rcases hm with hm | hm
        · exact hl0 a b r' hm
        · simp only [Prod.mk.injEq] at hm
          obtain ⟨hm1, rfl⟩ := hm
          rw [← hm1] at hr; exact hr)
      refine ⟨l, ?_, by rw [i2]; simp, i3⟩
      rw [← i1]
      simp only [Py.forIn, edgeData, hx, Option.map_some, hdat, hd]
      rfl
  obtain ⟨l, e1, e2, e3⟩ := key (edges g) [] (fun e he => (mem_edges h1 e).1 he) (by simp)
  simp only [List.map_nil, List.nil_append] at e2
  refine ⟨l, e1, e2, e2 ▸ edges_nodup h1, ?_⟩
  intro a b r
  refine ⟨e3 a b r, fun hm => ?_⟩
  have hmem : (a, b) ∈ l.map Prod.fst := by
    rw [e2, mem_edges h1]; exact ((h2 a b r).1 hm).1
  rw [List.mem_map] at hmem
  obtain ⟨⟨e, r'⟩, hl, hee⟩ := hmem
  dsimp only at hee
  subst hee
  have := e3 a b r' hl
  rw [hm] at this
  simp only [Option.some.injEq] at this
  subst this; exact hl

theorem Al.nodes {g : G κ ρ} {M : Alignment κ ρ} (h : Al g M (fun _ => False)) (n : κ) :
    n ∈ nodes g ↔ ∃ b, (M n b).isSome ∨ (M b n).isSome := by
  have hh := h
  obtain ⟨s, h1, h2, h3, h4⟩ := h.ex
  have : Graph.nodes g = s.nodes := h1.skeys
  rw [this]
  constructor
  · intro hn
    rcases h4 n hn with h | ⟨b, h⟩
    · exact h.elim
    · exact ⟨b, h.imp (h3 _ _) (h3 _ _)⟩
  · rintro ⟨b, h | h⟩
    · exact (h1.ends _ ((hh.edge h1 _ _).2 h)).1
    · exact (h1.ends _ ((hh.edge h1 _ _).2 h)).2

theorem Al.copy {g : G κ ρ} {M : Alignment κ ρ} (h : Al g M (fun _ => False)) :
    ∃ g', deepcopy g = .ok g' ∧ Al g' M (fun _ => False) := by
  have hh := h
  obtain ⟨s, h1, h2, h3, h4⟩ := h.ex
  obtain ⟨g0, e0, r0⟩ := (Rep.empty (κ := κ) (ν := ρ)).addNodesFrom (Graph.nodes g) []
  have hfold : ∀ (ns : List κ) (s : OGraph κ ρ), (ns.foldl OGraph.addNode s).edges = s.edges ∧
      ∀ n, n ∈ (ns.foldl OGraph.addNode s).nodes ↔ n ∈ s.nodes ∨ n ∈ ns := by
    intro ns
    induction ns with
    | nil => intro s; simp
    | cons m ns ih =>
      intro s
      rw [List.foldl_cons]
      refine ⟨by rw [(ih _).1, edges_addNode], fun n => ?_⟩
      rw [(ih _).2, nodes_addNode, List.mem_cons, or_assoc]
  obtain ⟨hE0, hN0⟩ := hfold (Graph.nodes g) ⟨[], [], fun _ _ => []⟩
  have a0 : Al g0 Alignment.none (fun n => n ∈ Graph.nodes g) := by
    refine ⟨_, r0, ?_, ?_, ?_⟩
    · rw [hE0]; simp [Alignment.none]
    · rw [hE0]; simp
    · intro n hn; left; rw [hN0] at hn; simpa using hn
  have key : ∀ (es : List (κ × κ)) (g0 : G κ ρ) (M0 : Alignment κ ρ) (P : κ → Prop), Al g0 M0 P →
      (∀ e ∈ es, e ∈ s.edges) →
      ∃ g', addEdgesFrom g0 (es.map fun e => (e.1, e.2, (edgeData g e.1 e.2).getD [])) [] = .ok g' ∧
        Al g' (fun a b => if (a, b) ∈ es then M a b else M0 a b)
          (fun n => P n ∧ ∀ e ∈ es, n ≠ e.1 ∧ n ≠ e.2) := by
    intro es
    induction es with
    | nil => intro g0 M0 P ha _; exact ⟨g0, rfl, by simpa using ha⟩
    | cons e es ih =>
      intro g0 M0 P ha hes
      have he := hes e (by simp)
      obtain ⟨r, hr⟩ := Option.isSome_iff_exists.1 (h3 e.1 e.2 he)
      obtain ⟨_, hd⟩ := (h2 e.1 e.2 r).1 hr
      obtain ⟨x, hx⟩ := Option.isSome_iff_exists.1 ((h1.ref_iff e.1 e.2).2 he)
      have hdat := h1.data _ _ x hx
      obtain ⟨g1, e1, a1⟩ := ha.add e.1 e.2 r
      obtain ⟨g2, e2, a2⟩ := ih g1 _ _ a1 (fun e' he' => hes e' (by simp [he']))
      refine ⟨g2, ?_, ?_⟩
      · rw [← e2]
        simp only [addEdgesFrom, List.map_cons, Py.forIn, edgeData, hx, Option.map_some, hdat, hd,
          Option.getD_some, List.nil_append, e1]
      · have hM : (fun a b => if (a, b) ∈ e :: es then M a b else M0 a b) =
            fun a b => if (a, b) ∈ es then M a b else (M0.put e.1 e.2 r) a b := by
          funext a b
          simp only [List.mem_cons, Alignment.put]
          by_cases h5 : (a, b) ∈ es
          · simp [h5]
          · by_cases h6 : (a, b) = e
            · subst h6; simp [h5, hr]
            · have : ¬ (a = e.1 ∧ b = e.2) := fun hc => h6 (by rw [hc.1, hc.2])
              simp [h5, h6, this]
        rw [hM]
        refine a2.mono ?_
        rintro n ⟨⟨p1, p2⟩, p3⟩
        refine ⟨p1, ?_⟩
        intro e' he'
        rw [List.mem_cons] at he'
        rcases he' with rfl | he'
        · exact p2
        · exact p3 e' he'
  obtain ⟨g', e1, a1⟩ := key (edges g) g0 _ _ a0 (fun e he => (mem_edges h1 e).1 he)
  refine ⟨g', by simp only [deepcopy, bind, Except.bind, e0, e1], ?_⟩
  have hM : (fun a b => if (a, b) ∈ edges g then M a b else Alignment.none a b) = M := by
    funext a b
    split
    · rfl
    · rename_i hn
      rw [mem_edges h1, hh.edge h1] at hn
      simp only [Option.not_isSome_iff_eq_none] at hn
      rw [hn]; rfl
  rw [hM] at a1
  refine a1.mono ?_
  rintro n ⟨p1, p2⟩
  obtain ⟨b, hb⟩ := (hh.nodes n).1 p1
  rcases hb with hb | hb
  · exact (p2 (n, b) ((mem_edges h1 _).2 ((hh.edge h1 _ _).2 hb))).1 rfl
  · exact (p2 (b, n) ((mem_edges h1 _).2 ((hh.edge h1 _ _).2 hb))).2 rfl

/-! ### Matching -/

theorem Al.succ_head {g : G κ ρ} {M : Alignment κ ρ} {P : κ → Prop} (h : Al g M P) (u : κ) :
    match (g.succ.get? u).bind fun m => m.keys.head? with
    | none => ∀ b, M u b = none
    | some b => (M u b).isSome := by
  obtain ⟨s, h1, _⟩ := h.ex
  have hE := fun b => h.edge h1 u b
  cases hm : g.succ.get? u with
  | none =>
    simp only [Option.bind_none]
    intro b
    have hn : u ∉ s.nodes := by rw [← h1.skeys, AD.not_mem_keys_iff]; exact hm
    have : ¬ (M u b).isSome := by rw [← hE]; intro he; exact hn (h1.ends _ he).1
    simpa using this
  | some m =>
    simp only [Option.bind_some]
    rw [h1.succs u m hm]
    cases hs : s.successors u with
    | nil =>
      simp only [List.head?_nil]
      intro b
      have : ¬ (M u b).isSome := by rw [← hE, ← mem_successors, hs]; simp
      simpa using this
    | cons b l =>
      simp only [List.head?_cons]
      rw [← hE, ← mem_successors, hs]; simp

theorem Al.pred_head {g : G κ ρ} {M : Alignment κ ρ} {P : κ → Prop} (h : Al g M P) (v : κ) :
    match (g.pred.get? v).bind fun m => m.keys.head? with
    | none => ∀ a, M a v = none
    | some a => (M a v).isSome := by
  obtain ⟨s, h1, _⟩ := h.ex
  have hE := fun a => h.edge h1 a v
  cases hm : g.pred.get? v with
  | none =>
    simp only [Option.bind_none]
    intro a
    have hn : v ∉ s.nodes := by rw [← h1.pkeys, AD.not_mem_keys_iff]; exact hm
    have : ¬ (M a v).isSome := by rw [← hE]; intro he; exact hn (h1.ends _ he).2
    simpa using this
  | some m =>
    simp only [Option.bind_some]
    rw [h1.preds v m hm]
    cases hs : s.predecessors v with
    | nil =>
      simp only [List.head?_nil]
      intro a
      have : ¬ (M a v).isSome := by rw [← hE, ← mem_predecessors, hs]; simp
      simpa using this
    | cons a l =>
      simp only [List.head?_cons]
      rw [← hE, ← mem_predecessors, hs]; simp

theorem oneToOne_drop {M : Alignment κ ρ} (h : M.OneToOne) (u v : κ) : (M.drop u v).OneToOne := by
  intro a b a' b' h1 h2
  unfold Alignment.drop at h1 h2
  split at h1
  · simp at h1
  · split at h2
    · simp at h2
    · exact h a b a' b' h1 h2

theorem oneToOne_wed {M : Alignment κ ρ} (h : M.OneToOne) (u v : κ) (r : ρ) : (M.wed u v r).OneToOne := by
  intro a b a' b' h1 h2
  unfold Alignment.wed at h1 h2
  split at h1
  · rename_i hab
    split at h2
    · rename_i hab'; simp [hab, hab']
    · split at h2
      · simp at h2
      · rename_i hn; push Not at hn; simp only [hab.1, hab.2]
        constructor
        · intro hc; exact absurd hc.symm hn.1
        · intro hc; exact absurd hc.symm hn.2
  · split at h1
    · simp at h1
    · rename_i hn
      push Not at hn
      split at h2
      · rename_i hab'
        simp only [hab'.1, hab'.2]
        constructor
        · intro hc; exact absurd hc hn.1
        · intro hc; exact absurd hc hn.2
      · split at h2
        · simp at h2
        · exact h a b a' b' h1 h2

theorem Al.wed {g : G κ ρ} {M : Alignment κ ρ} (h : Al g M (fun _ => False)) (h11 : M.OneToOne) (u v : κ) (r : ρ) :
    ∃ g', matchAlign g u v r = .ok g' ∧ Al g' (M.wed u v r) (fun _ => False) := by
  -- free the source
  have A : ∃ g1 M1, freeSource g u v = .ok g1 ∧ Al g1 M1 (fun n => n = u) ∧
      (∀ a b, M1 a b = if a = u ∧ b ≠ v then none else M a b) := by
    unfold freeSource
    have hh := h.succ_head u
    split at hh
    · rename_i hn
      try rw [hn]
      refine ⟨g, M, rfl, h.mono (by simp), ?_⟩
      intro a b
      split
      · rename_i hab; rw [hab.1]; exact hh b
      · rfl
    · rename_i old ho
      try rw [ho]
      try dsimp only
      by_cases hov : old ≠ v
      · rw [if_pos hov]
        obtain ⟨g1, e1, h1⟩ := h.remove u old hh
        obtain ⟨g2, e2, h2⟩ := h1.prune old
        refine ⟨g2, _, by simp only [bind, Except.bind, e1, e2], h2.mono ?_, ?_⟩
        · rintro n ⟨h | h | h, h'⟩
          · exact h.elim
          · exact h
          · exact absurd h h'
        · intro a b
          unfold Alignment.drop
          by_cases ha : a = u
          · subst ha
            by_cases hb : b = old
            · subst hb; simp [hov]
            · have hMb : M a b = none := by
                by_contra hc
                exact hb ((h11 a b a old (Option.isSome_iff_ne_none.2 hc) hh).1 rfl)
              simp [hb, hMb]
          · simp [ha]
      · rw [if_neg hov]
        push Not at hov
        subst hov
        refine ⟨g, M, rfl, h.mono (by simp), ?_⟩
        intro a b
        split
        · rename_i hab
          obtain ⟨rfl, hb⟩ := hab
          by_contra hc
          exact hb ((h11 a b a old (Option.isSome_iff_ne_none.2 hc) hh).1 rfl)
        · rfl
  obtain ⟨g1, M1, e1, a1, m1⟩ := A
  have B : ∃ g2 M2, freeTarget g1 u v = .ok g2 ∧ Al g2 M2 (fun n => n = u ∨ n = v) ∧
      (∀ a b, M2 a b = if (a = u ∧ b ≠ v) ∨ (b = v ∧ a ≠ u) then none else M a b) := by
    unfold freeTarget
    have hh := a1.pred_head v
    have h11' : ∀ a b a' b', (M1 a b).isSome → (M1 a' b').isSome → (a = a' ↔ b = b') := by
      intro a b a' b' x y
      rw [m1] at x y
      split at x
      · simp at x
      · split at y
        · simp at y
        · exact h11 a b a' b' x y
    split at hh
    · rename_i hn
      try rw [hn]
      refine ⟨g1, M1, rfl, a1.mono (fun n hn => Or.inl hn), ?_⟩
      intro a b
      rw [m1]
      by_cases h1 : a = u ∧ b ≠ v
      · simp [h1]
      · rw [if_neg h1]
        split
        · rename_i hab
          have := hab.resolve_left h1
          have h2 := hh a
          rw [m1, if_neg (by simp [this.2])] at h2
          rw [this.1]; exact h2
        · rfl
    · rename_i old ho
      try rw [ho]
      try dsimp only
      by_cases hov : old ≠ u
      · rw [if_pos hov]
        obtain ⟨g2, e2, h2⟩ := a1.remove old v hh
        obtain ⟨g3, e3, h3⟩ := h2.prune old
        refine ⟨g3, _, by simp only [bind, Except.bind, e2, e3], h3.mono ?_, ?_⟩
        · rintro n ⟨h | h | h, h'⟩
          · exact Or.inl h
          · exact absurd h h'
          · exact Or.inr h
        · intro a b
          unfold Alignment.drop
          rw [m1]
          by_cases hb : b = v
          · subst hb
            by_cases ha : a = old
            · subst ha; simp [hov]
            · by_cases hau : a = u
              · subst hau; simp [ha]
              · have hMb : M a b = none := by
                  by_contra hc
                  have := h11' a b old b (by rw [m1, if_neg (by simp)]; exact Option.isSome_iff_ne_none.2 hc) hh
                  exact ha (this.2 rfl)
                simp [hMb]
          · simp [hb]
      · rw [if_neg hov]
        push Not at hov
        subst hov
        refine ⟨g1, M1, rfl, a1.mono (fun n hn => Or.inl hn), ?_⟩
        intro a b
        rw [m1]
        by_cases hb : b = v
        · subst hb
          by_cases ha : a = old
          · subst ha; simp
          · have hMb : M a b = none := by
              by_contra hc
              have := h11' a b old b (by rw [m1, if_neg (by simp)]; exact Option.isSome_iff_ne_none.2 hc) hh
              exact ha (this.2 rfl)
            simp [hMb]
        · simp [hb]
  obtain ⟨g2, M2, e2, a2, m2⟩ := B
  obtain ⟨g3, e3, a3⟩ := a2.add u v r
  refine ⟨g3, by simp only [matchAlign, bind, Except.bind, e1, e2, e3], ?_⟩
  have hM : M2.put u v r = M.wed u v r := by
    funext a b
    unfold Alignment.put Alignment.wed
    split
    · rfl
    · rename_i hab
      rw [m2]
      by_cases ha : a = u
      · have : b ≠ v := fun hb => hab ⟨ha, hb⟩
        simp [ha, this]
      · simp [ha]
  rw [← hM]
  refine a3.mono ?_
  rintro n ⟨h | h, h', h''⟩
  · exact absurd h h'
  · exact absurd h h''

end Verif.GraphPair
