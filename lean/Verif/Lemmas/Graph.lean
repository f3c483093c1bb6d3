import Verif.Model.Graph
import Verif.Spec.OGraph
import Verif.Lemmas.Base

set_option linter.unusedSectionVars false

namespace Verif.Graph
open Verif Verif.Spec
variable {κ ν : Type} [DecidableEq κ]

theorem has_iff {α : Type} (d : AD κ α) (k : κ) : d.has k = true ↔ k ∈ d.keys := by
  rw [AD.mem_keys_iff]; rfl

theorem exists_of_mem {α : Type} {d : AD κ α} {k : κ} (h : k ∈ d.keys) : ∃ m, d.get? k = some m := by
  rw [AD.mem_keys_iff] at h; exact Option.isSome_iff_exists.1 h

theorem mem_of_get {α : Type} {d : AD κ α} {k : κ} {m : α} (h : d.get? k = some m) : k ∈ d.keys := by
  rw [AD.mem_keys_iff, h]; rfl

/-- The graph's data structure represents the specified graph. -/
structure Rep (g : G κ ν) (s : OGraph κ ν) : Prop where
  skeys : g.succ.keys = s.nodes
  pkeys : g.pred.keys = s.nodes
  nkeys : ∀ n, n ∈ g.node.keys ↔ n ∈ s.nodes
  nodup : s.nodes.Nodup
  enodup : s.edges.Nodup
  ends : ∀ e ∈ s.edges, e.1 ∈ s.nodes ∧ e.2 ∈ s.nodes
  succs : ∀ u m, g.succ.get? u = some m → m.keys = s.successors u
  preds : ∀ v m, g.pred.get? v = some m → m.keys = s.predecessors v
  same : ∀ u v, succRef g u v = predRef g u v
  inj : ∀ u v u' v' r, succRef g u v = some r → succRef g u' v' = some r → u = u' ∧ v = v'
  lt : ∀ u v r, succRef g u v = some r → r < g.efresh
  data : ∀ u v r, succRef g u v = some r → g.eheap r = s.data u v

theorem Rep.empty : Rep (empty : G κ ν) ⟨[], [], fun _ _ => []⟩ := by
  constructor <;> simp [Graph.empty, AD.keys, succRef, predRef]

theorem mem_successors (s : OGraph κ ν) (u v : κ) : v ∈ s.successors u ↔ (u, v) ∈ s.edges := by
  unfold OGraph.successors
  simp only [List.mem_map, List.mem_filter, decide_eq_true_eq]
  constructor
  · rintro ⟨⟨a, b⟩, ⟨h1, h2⟩, h3⟩; dsimp only at h2 h3; subst h2 h3; exact h1
  · intro h; exact ⟨(u, v), ⟨h, rfl⟩, rfl⟩

theorem mem_predecessors (s : OGraph κ ν) (u v : κ) : u ∈ s.predecessors v ↔ (u, v) ∈ s.edges := by
  unfold OGraph.predecessors
  simp only [List.mem_map, List.mem_filter, decide_eq_true_eq]
  constructor
  · rintro ⟨⟨a, b⟩, ⟨h1, h2⟩, h3⟩; dsimp only at h2 h3; subst h2 h3; exact h1
  · intro h; exact ⟨(u, v), ⟨h, rfl⟩, rfl⟩

theorem Rep.ref_iff {g : G κ ν} {s : OGraph κ ν} (h : Rep g s) (u v : κ) :
    (succRef g u v).isSome ↔ (u, v) ∈ s.edges := by
  rw [← mem_successors]
  unfold succRef
  cases hu : g.succ.get? u with
  | none =>
    have hn : u ∉ s.nodes := by rw [← h.skeys, AD.not_mem_keys_iff]; exact hu
    simp only [Option.bind_none, Option.isSome_none, Bool.false_eq_true, false_iff, mem_successors]
    intro hc; exact hn (h.ends _ hc).1
  | some m =>
    rw [← h.succs u m hu, AD.mem_keys_iff]; rfl

theorem Rep.mem {g : G κ ν} {s : OGraph κ ν} (h : Rep g s) (n : κ) : g.succ.has n = true ↔ n ∈ s.nodes := by
  rw [has_iff, h.skeys]

theorem Rep.nheap {g : G κ ν} {s : OGraph κ ν} (h : Rep g s) (hp : Nat → AD String ν) (f : Nat) :
    Rep { g with nheap := hp, nfresh := f } s :=
  ⟨h.skeys, h.pkeys, h.nkeys, h.nodup, h.enodup, h.ends, h.succs, h.preds, h.same, h.inj, h.lt, h.data⟩

theorem get?_set_nil (d : AD κ (AD κ Nat)) {n : κ} (h : n ∉ d.keys) (u v : κ) :
    ((d.set n []).get? u).bind (fun m => m.get? v) = (d.get? u).bind (fun m => m.get? v) := by
  rw [AD.get?_set]
  split
  · rename_i hu; subst hu
    rw [AD.not_mem_keys_iff] at h
    rw [h]; simp
  · rfl

theorem Rep.insertNode {g : G κ ν} {s : OGraph κ ν} (h : Rep g s) (n : κ) (a : Nat) (hn : n ∉ s.nodes)
    (hp : Nat → AD String ν) (f : Nat) :
    Rep { g with succ := g.succ.set n [], pred := g.pred.set n [], node := g.node.set n a, nheap := hp,
                 nfresh := f } (s.addNode n) := by
  have hsn : n ∉ g.succ.keys := by rw [h.skeys]; exact hn
  have hpn : n ∉ g.pred.keys := by rw [h.pkeys]; exact hn
  have hs : ∀ u v, succRef { g with succ := g.succ.set n [], pred := g.pred.set n [], node := g.node.set n a, nheap := hp, nfresh := f } u v =
      succRef g u v := fun u v => get?_set_nil g.succ hsn u v
  have hpr : ∀ u v, predRef { g with succ := g.succ.set n [], pred := g.pred.set n [], node := g.node.set n a, nheap := hp, nfresh := f } u v =
      predRef g u v := fun u v => get?_set_nil g.pred hpn v u
  have hadd : s.addNode n = { s with nodes := s.nodes ++ [n] } := by unfold OGraph.addNode; rw [if_neg hn]
  rw [hadd]
  refine ⟨?_, ?_, ?_, ?_, h.enodup, ?_, ?_, ?_, ?_, ?_, ?_, ?_⟩
  · dsimp only; rw [AD.keys_set, if_neg hsn, h.skeys]
  · dsimp only; rw [AD.keys_set, if_neg hpn, h.pkeys]
  · intro x
    dsimp only
    have hnn : n ∉ g.node.keys := by rw [h.nkeys]; exact hn
    rw [AD.keys_set, if_neg hnn, List.mem_append, List.mem_append, h.nkeys]
  · dsimp only
    rw [List.nodup_append]
    refine ⟨h.nodup, by simp, ?_⟩
    intro x hx y hy
    simp only [List.mem_singleton] at hy
    subst hy; rintro rfl; exact hn hx
  · intro e he
    have := h.ends e he
    simp only [List.mem_append]
    exact ⟨Or.inl this.1, Or.inl this.2⟩
  · intro u m hu
    dsimp only at hu
    rw [AD.get?_set] at hu
    split at hu
    · rename_i hun
      simp only [Option.some.injEq] at hu
      subst hu hun
      have : s.successors u = [] := by
        rw [List.eq_nil_iff_forall_not_mem]
        intro v hv
        rw [mem_successors] at hv
        exact hn (h.ends _ hv).1
      show _ = s.successors u
      rw [this]; rfl
    · exact h.succs u m hu
  · intro u m hu
    dsimp only at hu
    rw [AD.get?_set] at hu
    split at hu
    · rename_i hun
      simp only [Option.some.injEq] at hu
      subst hu hun
      have : s.predecessors u = [] := by
        rw [List.eq_nil_iff_forall_not_mem]
        intro v hv
        rw [mem_predecessors] at hv
        exact hn (h.ends _ hv).2
      show _ = s.predecessors u
      rw [this]; rfl
    · exact h.preds u m hu
  · intro u v; rw [hs, hpr]; exact h.same u v
  · intro u v u' v' r h1 h2; rw [hs] at h1 h2; exact h.inj u v u' v' r h1 h2
  · intro u v r h1; rw [hs] at h1; exact h.lt u v r h1
  · intro u v r h1; rw [hs] at h1; exact h.data u v r h1

theorem addNode_mem {s : OGraph κ ν} {n : κ} (h : n ∈ s.nodes) : s.addNode n = s := by
  unfold OGraph.addNode; rw [if_pos h]

theorem Rep.putNode {g : G κ ν} {s : OGraph κ ν} (h : Rep g s) (n : κ) (a : Nat) :
    ∃ g', putNode g n a = .ok g' ∧ Rep g' (s.addNode n) := by
  unfold Graph.putNode
  by_cases hn : n ∈ s.nodes
  · rw [if_pos ((h.mem n).2 hn)]
    obtain ⟨b, hb⟩ := exists_of_mem ((h.nkeys n).2 hn)
    rw [AD.get_eq hb, addNode_mem hn]
    exact ⟨_, rfl, h.nheap _ _⟩
  · rw [if_neg (fun hc => hn ((h.mem n).1 hc))]
    exact ⟨_, rfl, h.insertNode n a hn _ _⟩

theorem Rep.addNode {g : G κ ν} {s : OGraph κ ν} (h : Rep g s) (n : κ) (ad : Option Nat) (attr : AD String ν) :
    ∃ g', addNode g n ad attr = .ok g' ∧ Rep g' (s.addNode n) := by
  unfold Graph.addNode
  cases ad with
  | none => exact (h.nheap _ _).putNode n _
  | some a => exact (h.nheap _ _).putNode n _

theorem Rep.addNodesFrom {g : G κ ν} {s : OGraph κ ν} (h : Rep g s) (ns : List κ) (attr : AD String ν) :
    ∃ g', addNodesFrom g ns attr = .ok g' ∧ Rep g' (ns.foldl OGraph.addNode s) := by
  unfold Graph.addNodesFrom
  have h0 : Rep (newDict g attr).1 s := h.nheap _ _
  generalize (newDict g attr).2 = a
  generalize (newDict g attr).1 = g0 at h0
  clear h
  induction ns generalizing g0 s with
  | nil => exact ⟨g0, rfl, h0⟩
  | cons n ns ih =>
    obtain ⟨g1, e1, e2⟩ := h0.putNode n a
    obtain ⟨g2, f1, f2⟩ := ih g1 e2
    exact ⟨g2, by simp [Py.forIn, e1, f1], f2⟩

theorem Rep.ensureNode {g : G κ ν} {s : OGraph κ ν} (h : Rep g s) (n : κ) :
    Rep (ensureNode g n) (s.addNode n) := by
  unfold Graph.ensureNode
  by_cases hn : n ∈ s.nodes
  · rw [if_pos ((h.mem n).2 hn), addNode_mem hn]; exact h
  · rw [if_neg (fun hc => hn ((h.mem n).1 hc))]
    exact h.insertNode n _ hn _ _

theorem nodes_addNode (s : OGraph κ ν) (n x : κ) : x ∈ (s.addNode n).nodes ↔ x ∈ s.nodes ∨ x = n := by
  unfold OGraph.addNode
  split
  · rename_i h
    constructor
    · exact Or.inl
    · rintro (h' | rfl)
      · exact h'
      · exact h
  · simp

/-- Setting one nested entry. -/
theorem nested_set (d : AD κ (AD κ Nat)) {u : κ} {m : AD κ Nat} (hu : d.get? u = some m) (v : κ) (r : Nat)
    (a b : κ) :
    ((d.set u (m.set v r)).get? a).bind (fun m => m.get? b) =
      if a = u ∧ b = v then some r else (d.get? a).bind (fun m => m.get? b) := by
  rw [AD.get?_set]
  by_cases ha : a = u
  · subst ha
    simp only [if_true, Option.bind_some, AD.get?_set, hu, true_and]
  · simp only [ha, if_false, false_and]

theorem keys_set_keys (d : AD κ (AD κ Nat)) {u : κ} {m : AD κ Nat} (hu : d.get? u = some m) (m' : AD κ Nat) :
    (d.set u m').keys = d.keys := by
  rw [AD.keys_set, if_pos (mem_of_get hu)]

theorem successors_append (s : OGraph κ ν) (u v a : κ) :
    ({ s with edges := s.edges ++ [(u, v)] } : OGraph κ ν).successors a =
      if a = u then s.successors a ++ [v] else s.successors a := by
  unfold OGraph.successors
  simp only [List.filter_append, List.map_append]
  by_cases h : a = u
  · subst h; simp
  · have : ¬ u = a := fun h' => h h'.symm
    simp [h, this]

theorem predecessors_append (s : OGraph κ ν) (u v a : κ) :
    ({ s with edges := s.edges ++ [(u, v)] } : OGraph κ ν).predecessors a =
      if a = v then s.predecessors a ++ [u] else s.predecessors a := by
  unfold OGraph.predecessors
  simp only [List.filter_append, List.map_append]
  by_cases h : a = v
  · subst h; simp
  · have : ¬ v = a := fun h' => h h'.symm
    simp [h, this]

/-- What `putEdge` does to the specified graph once the endpoints are there. -/
def specPut (s : OGraph κ ν) (u v : κ) (d : AD String ν) : OGraph κ ν :=
  if (u, v) ∈ s.edges then s.setData u v (OGraph.merge (s.data u v) d)
  else ({ s with edges := s.edges ++ [(u, v)] } : OGraph κ ν).setData u v (OGraph.merge [] d)

theorem Rep.putEdge {g : G κ ν} {s : OGraph κ ν} (h : Rep g s) (u v : κ) (attr : AD String ν)
    (hu : u ∈ s.nodes) (hv : v ∈ s.nodes) :
    ∃ g', putEdge g u v attr = .ok g' ∧ Rep g' (specPut s u v attr) := by
  obtain ⟨m, hm⟩ := exists_of_mem (d := g.succ) (k := u) (by rw [h.skeys]; exact hu)
  obtain ⟨p, hp⟩ := exists_of_mem (d := g.pred) (k := v) (by rw [h.pkeys]; exact hv)
  unfold Graph.putEdge
  simp only [AD.get_eq hm, bind, Except.bind]
  have hsr : succRef g u v = m.get? v := by unfold succRef; rw [hm]; rfl
  have hpr : predRef g u v = p.get? u := by unfold predRef; rw [hp]; rfl
  have hsm : m.get? v = p.get? u := by rw [← hsr, ← hpr]; exact h.same u v
  cases hr : m.get? v with
  | some r =>
    have hedge : (u, v) ∈ s.edges := by rw [← h.ref_iff, hsr, hr]; rfl
    simp only [setNested, AD.get_eq hm, AD.get_eq hp]
    refine ⟨_, rfl, ?_⟩
    have hS : ∀ a b, ((g.succ.set u (m.set v r)).get? a).bind (fun m => m.get? b) = succRef g a b := by
      intro a b
      rw [nested_set g.succ hm]
      split
      · rename_i hab; obtain ⟨rfl, rfl⟩ := hab; rw [hsr, hr]
      · rfl
    have hP : ∀ a b, ((g.pred.set v (p.set u r)).get? b).bind (fun m => m.get? a) = predRef g a b := by
      intro a b
      rw [nested_set g.pred hp]
      split
      · rename_i hab; obtain ⟨rfl, rfl⟩ := hab; rw [hpr, ← hsm, hr]
      · rfl
    unfold specPut
    rw [if_pos hedge]
    refine ⟨?_, ?_, h.nkeys, h.nodup, h.enodup, h.ends, ?_, ?_, ?_, ?_, ?_, ?_⟩
    · dsimp only; rw [keys_set_keys _ hm]; exact h.skeys
    · dsimp only; rw [keys_set_keys _ hp]; exact h.pkeys
    · intro a ma ha
      dsimp only at ha
      rw [AD.get?_set] at ha
      split at ha
      · rename_i hau
        simp only [Option.some.injEq] at ha
        subst ha hau
        rw [AD.keys_set, if_pos (mem_of_get hr)]
        exact h.succs a m hm
      · exact h.succs a ma ha
    · intro a ma ha
      dsimp only at ha
      rw [AD.get?_set] at ha
      split at ha
      · rename_i hau
        simp only [Option.some.injEq] at ha
        subst ha hau
        rw [AD.keys_set, if_pos (mem_of_get (hsm ▸ hr))]
        exact h.preds a p hp
      · exact h.preds a ma ha
    · intro a b; exact (hS a b).trans ((h.same a b).trans (hP a b).symm)
    · intro a b a' b' r' h1 h2
      exact h.inj a b a' b' r' ((hS a b).symm.trans h1) ((hS a' b').symm.trans h2)
    · intro a b r' h1; exact h.lt a b r' ((hS a b).symm.trans h1)
    · intro a b r' h1
      have h1' : succRef g a b = some r' := (hS a b).symm.trans h1
      dsimp only [OGraph.setData, upd]
      have hd := h.data u v r (by rw [hsr, hr])
      by_cases hrr : r' = r
      · subst hrr
        obtain ⟨rfl, rfl⟩ := h.inj a b u v r' h1' (by rw [hsr, hr])
        simp only [if_true, and_self]
        rw [hd]; rfl
      · rw [if_neg hrr, if_neg]
        · exact h.data a b r' h1'
        · rintro ⟨rfl, rfl⟩
          rw [hsr, hr] at h1'
          simp only [Option.some.injEq] at h1'
          exact hrr h1'.symm
  | none =>
    have hedge : (u, v) ∉ s.edges := by rw [← h.ref_iff, hsr, hr]; simp
    simp only [setNested, AD.get_eq hm, AD.get_eq hp]
    refine ⟨_, rfl, ?_⟩
    have hS : ∀ a b, ((g.succ.set u (m.set v g.efresh)).get? a).bind (fun m => m.get? b) =
        if a = u ∧ b = v then some g.efresh else succRef g a b := fun a b => nested_set g.succ hm v _ a b
    have hP : ∀ a b, ((g.pred.set v (p.set u g.efresh)).get? b).bind (fun m => m.get? a) =
        if b = v ∧ a = u then some g.efresh else predRef g a b := fun a b => nested_set g.pred hp u _ b a
    unfold specPut
    rw [if_neg hedge]
    refine ⟨?_, ?_, h.nkeys, h.nodup, ?_, ?_, ?_, ?_, ?_, ?_, ?_, ?_⟩
    · dsimp only; rw [keys_set_keys _ hm]; exact h.skeys
    · dsimp only; rw [keys_set_keys _ hp]; exact h.pkeys
    · dsimp only [OGraph.setData]
      rw [List.nodup_append]
      refine ⟨h.enodup, by simp, ?_⟩
      intro x hx y hy
      simp only [List.mem_singleton] at hy
      subst hy; rintro rfl; exact hedge hx
    · intro e he
      simp only [OGraph.setData, List.mem_append, List.mem_singleton] at he
      rcases he with he | rfl
      · exact h.ends e he
      · exact ⟨hu, hv⟩
    · intro a ma ha
      show _ = ({ s with edges := s.edges ++ [(u, v)] } : OGraph κ ν).successors a
      rw [successors_append]
      dsimp only at ha
      rw [AD.get?_set] at ha
      split at ha
      · rename_i hau
        simp only [Option.some.injEq] at ha
        subst ha hau
        have : v ∉ m.keys := by rw [AD.not_mem_keys_iff]; exact hr
        rw [AD.keys_set, if_neg this, if_pos rfl, h.succs a m hm]
      · rename_i hau
        rw [if_neg hau]; exact h.succs a ma ha
    · intro a ma ha
      show _ = ({ s with edges := s.edges ++ [(u, v)] } : OGraph κ ν).predecessors a
      rw [predecessors_append]
      dsimp only at ha
      rw [AD.get?_set] at ha
      split at ha
      · rename_i hau
        simp only [Option.some.injEq] at ha
        subst ha hau
        have : u ∉ p.keys := by rw [AD.not_mem_keys_iff, ← hsm]; exact hr
        rw [AD.keys_set, if_neg this, if_pos rfl, h.preds a p hp]
      · rename_i hau
        rw [if_neg hau]; exact h.preds a ma ha
    · intro a b
      refine (hS a b).trans (Eq.trans ?_ (hP a b).symm)
      by_cases hab : a = u ∧ b = v
      · rw [if_pos hab, if_pos ⟨hab.2, hab.1⟩]
      · rw [if_neg hab, if_neg (fun hc => hab ⟨hc.2, hc.1⟩)]; exact h.same a b
    · intro a b a' b' r' h1 h2
      have h1' := (hS a b).symm.trans h1
      have h2' := (hS a' b').symm.trans h2
      split at h1' <;> split at h2'
      · rename_i q1 q2; exact ⟨q1.1.trans q2.1.symm, q1.2.trans q2.2.symm⟩
      · simp only [Option.some.injEq] at h1'
        have := h.lt _ _ _ h2'; omega
      · simp only [Option.some.injEq] at h2'
        have := h.lt _ _ _ h1'; omega
      · exact h.inj a b a' b' r' h1' h2'
    · intro a b r' h1
      have h1' := (hS a b).symm.trans h1
      dsimp only
      split at h1'
      · simp only [Option.some.injEq] at h1'; omega
      · have := h.lt _ _ _ h1'; omega
    · intro a b r' h1
      have h1' := (hS a b).symm.trans h1
      dsimp only [OGraph.setData, upd]
      split at h1'
      · rename_i hab
        simp only [Option.some.injEq] at h1'
        subst h1'
        simp only [if_true, hab, and_self]; rfl
      · rename_i hab
        have hlt := h.lt _ _ _ h1'
        have hne : r' ≠ g.efresh := by omega
        rw [if_neg hne, if_neg hne, if_neg hab]
        exact h.data a b r' h1'

theorem Rep.addEdge {g : G κ ν} {s : OGraph κ ν} (h : Rep g s) (u v : κ) (attr : AD String ν) :
    ∃ g', addEdge g u v attr = .ok g' ∧ Rep g' (s.addEdge u v attr) := by
  have h2 := (h.ensureNode u).ensureNode v
  obtain ⟨g', e1, e2⟩ := h2.putEdge u v attr
    (by rw [nodes_addNode, nodes_addNode]; exact Or.inl (Or.inr rfl)) (by rw [nodes_addNode]; exact Or.inr rfl)
  exact ⟨g', e1, e2⟩

theorem Rep.addEdgesFrom {g : G κ ν} {s : OGraph κ ν} (h : Rep g s) (es : List (κ × κ × AD String ν))
    (attr : AD String ν) :
    ∃ g', addEdgesFrom g es attr = .ok g' ∧
      Rep g' (es.foldl (fun s e => s.addEdge e.1 e.2.1 (attr ++ e.2.2)) s) := by
  unfold Graph.addEdgesFrom
  induction es generalizing g s with
  | nil => exact ⟨g, rfl, h⟩
  | cons e es ih =>
    obtain ⟨g1, e1, e2⟩ := h.addEdge e.1 e.2.1 (attr ++ e.2.2)
    obtain ⟨g2, f1, f2⟩ := ih e2
    exact ⟨g2, by simp [Py.forIn, e1, f1], f2⟩

theorem delNested_ok {d : AD κ (AD κ Nat)} {u v : κ} {m : AD κ Nat} (hu : d.get? u = some m) (hv : v ∈ m.keys) :
    delNested d u v = .ok (d.set u (m.del v)) := by
  unfold delNested
  rw [AD.get_eq hu]
  simp only
  rw [if_pos ((has_iff m v).2 hv)]

/-- Removing the edges in a list of sources from a dict of dicts. -/
theorem delNested_loop (n : κ) : ∀ (ks : List κ) (d : AD κ (AD κ Nat)), ks.Nodup →
    (∀ u ∈ ks, ∃ m, d.get? u = some m ∧ n ∈ m.keys) →
    ∃ d', Py.forIn ks d (fun u p => delNested p u n) = .ok d' ∧ d'.keys = d.keys ∧
      ∀ x, d'.get? x = if x ∈ ks then (d.get? x).map (fun m => m.del n) else d.get? x := by
  intro ks
  induction ks with
  | nil => intro d _ _; exact ⟨d, rfl, rfl, by simp⟩
  | cons k ks ih =>
    intro d hnd h
    rw [List.nodup_cons] at hnd
    obtain ⟨m, hm, hn⟩ := h k (by simp)
    have e1 := delNested_ok hm hn
    obtain ⟨d', f1, f2, f3⟩ := ih (d.set k (m.del n)) hnd.2 (by
      intro u hu
      obtain ⟨m', hm', hn'⟩ := h u (by simp [hu])
      refine ⟨m', ?_, hn'⟩
      rw [AD.get?_set, if_neg]
      · exact hm'
      · rintro rfl; exact hnd.1 hu)
    refine ⟨d', by simp [Py.forIn, e1, f1], by rw [f2, keys_set_keys _ hm], ?_⟩
    intro x
    rw [f3, AD.get?_set]
    by_cases hx : x = k
    · subst hx
      simp [hnd.1, hm]
    · simp [hx]

theorem successors_filter (s : OGraph κ ν) (P : κ × κ → Bool) (u : κ) (Q : κ → Bool)
    (h : ∀ v, P (u, v) = Q v) :
    ({ s with edges := s.edges.filter P } : OGraph κ ν).successors u = (s.successors u).filter Q := by
  unfold OGraph.successors
  dsimp only
  rw [List.filter_map, List.filter_filter, List.filter_filter]
  congr 1
  apply List.filter_congr
  rintro ⟨a, b⟩ _
  dsimp only [Function.comp]
  by_cases ha : a = u
  · subst ha; simp [h b]
  · simp [ha]

theorem predecessors_filter (s : OGraph κ ν) (P : κ × κ → Bool) (v : κ) (Q : κ → Bool)
    (h : ∀ u, P (u, v) = Q u) :
    ({ s with edges := s.edges.filter P } : OGraph κ ν).predecessors v = (s.predecessors v).filter Q := by
  unfold OGraph.predecessors
  dsimp only
  rw [List.filter_map, List.filter_filter, List.filter_filter]
  congr 1
  apply List.filter_congr
  rintro ⟨a, b⟩ _
  dsimp only [Function.comp]
  by_cases ha : b = v
  · subst ha; simp [h a]
  · simp [ha]

theorem successors_nodup {g : G κ ν} {s : OGraph κ ν} (h : Rep g s) (u : κ) : (s.successors u).Nodup := by
  unfold OGraph.successors
  apply List.Nodup.map_on
  · rintro ⟨a, b⟩ hx ⟨c, d⟩ hy hxy
    simp only [List.mem_filter, decide_eq_true_eq] at hx hy
    simp only at hxy
    rw [hx.2, hy.2, hxy]
  · exact h.enodup.filter _

theorem predecessors_nodup {g : G κ ν} {s : OGraph κ ν} (h : Rep g s) (u : κ) : (s.predecessors u).Nodup := by
  unfold OGraph.predecessors
  apply List.Nodup.map_on
  · rintro ⟨a, b⟩ hx ⟨c, d⟩ hy hxy
    simp only [List.mem_filter, decide_eq_true_eq] at hx hy
    simp only at hxy
    rw [hx.2, hy.2, hxy]
  · exact h.enodup.filter _

theorem nested_del (d : AD κ (AD κ Nat)) {u : κ} {m : AD κ Nat} (hu : d.get? u = some m) (v a b : κ) :
    ((d.set u (m.del v)).get? a).bind (fun m => m.get? b) =
      if a = u ∧ b = v then none else (d.get? a).bind (fun m => m.get? b) := by
  rw [AD.get?_set]
  by_cases ha : a = u
  · subst ha
    simp only [if_true, Option.bind_some, AD.get?_del, hu, true_and]
  · simp only [ha, if_false, false_and]

theorem Rep.removeEdge {g : G κ ν} {s : OGraph κ ν} (h : Rep g s) (u v : κ) (he : (u, v) ∈ s.edges) :
    ∃ g', removeEdge g u v = .ok g' ∧ Rep g' (s.removeEdge u v) ∧ g'.node = g.node := by
  obtain ⟨hu, hv⟩ := h.ends _ he
  obtain ⟨m, hm⟩ := exists_of_mem (d := g.succ) (k := u) (by rw [h.skeys]; exact hu)
  obtain ⟨p, hp⟩ := exists_of_mem (d := g.pred) (k := v) (by rw [h.pkeys]; exact hv)
  have hvm : v ∈ m.keys := by rw [h.succs u m hm, mem_successors]; exact he
  have hup : u ∈ p.keys := by rw [h.preds v p hp, mem_predecessors]; exact he
  unfold Graph.removeEdge
  rw [delNested_ok hm hvm, delNested_ok hp hup]
  refine ⟨_, rfl, ?_, rfl⟩
  have hS : ∀ a b, ((g.succ.set u (m.del v)).get? a).bind (fun m => m.get? b) =
      if a = u ∧ b = v then none else succRef g a b := fun a b => nested_del g.succ hm v a b
  have hP : ∀ a b, ((g.pred.set v (p.del u)).get? b).bind (fun m => m.get? a) =
      if b = v ∧ a = u then none else predRef g a b := fun a b => nested_del g.pred hp u b a
  refine ⟨?_, ?_, h.nkeys, h.nodup, h.enodup.filter _, ?_, ?_, ?_, ?_, ?_, ?_, ?_⟩
  · dsimp only; rw [keys_set_keys _ hm]; exact h.skeys
  · dsimp only; rw [keys_set_keys _ hp]; exact h.pkeys
  · intro e he
    exact h.ends e (List.mem_of_mem_filter he)
  · intro a ma ha
    dsimp only at ha
    have hf := successors_filter s (fun e => decide (e ≠ (u, v))) a
      (fun b => decide (¬ (a = u ∧ b = v))) (by intro b; simp)
    show _ = OGraph.successors _ a
    unfold OGraph.removeEdge
    rw [hf]
    rw [AD.get?_set] at ha
    split at ha
    · rename_i hau
      simp only [Option.some.injEq] at ha
      subst ha hau
      rw [AD.keys_del, h.succs a m hm]
      simp
    · rename_i hau
      rw [h.succs a ma ha]
      symm
      rw [List.filter_eq_self]
      intro b _; simp [hau]
  · intro a ma ha
    dsimp only at ha
    have hf := predecessors_filter s (fun e => decide (e ≠ (u, v))) a
      (fun b => decide (¬ (a = v ∧ b = u))) (by intro b; simp only [ne_eq, Prod.mk.injEq]; congr 1; apply propext; tauto)
    show _ = OGraph.predecessors _ a
    unfold OGraph.removeEdge
    rw [hf]
    rw [AD.get?_set] at ha
    split at ha
    · rename_i hau
      simp only [Option.some.injEq] at ha
      subst ha hau
      rw [AD.keys_del, h.preds a p hp]
      simp
    · rename_i hau
      rw [h.preds a ma ha]
      symm
      rw [List.filter_eq_self]
      intro b _; simp [hau]
  · intro a b
    refine (hS a b).trans (Eq.trans ?_ (hP a b).symm)
    by_cases hab : a = u ∧ b = v
    · rw [if_pos hab, if_pos ⟨hab.2, hab.1⟩]
    · rw [if_neg hab, if_neg (fun hc => hab ⟨hc.2, hc.1⟩)]; exact h.same a b
  · intro a b a' b' r' h1 h2
    have h1' := (hS a b).symm.trans h1
    have h2' := (hS a' b').symm.trans h2
    split at h1'
    · simp at h1'
    · split at h2'
      · simp at h2'
      · exact h.inj a b a' b' r' h1' h2'
  · intro a b r' h1
    have h1' := (hS a b).symm.trans h1
    split at h1'
    · simp at h1'
    · exact h.lt a b r' h1'
  · intro a b r' h1
    have h1' := (hS a b).symm.trans h1
    split at h1'
    · simp at h1'
    · exact h.data a b r' h1'

theorem removeEdge_absent {g : G κ ν} {s : OGraph κ ν} (h : Rep g s) (u v : κ) (he : (u, v) ∉ s.edges) :
    removeEdge g u v = .error .networkXError := by
  rw [← h.ref_iff] at he
  unfold succRef at he
  unfold Graph.removeEdge delNested
  cases hu : g.succ.get? u with
  | none => simp [AD.get, hu]
  | some m =>
    rw [hu] at he
    have : ¬ m.has v = true := by simpa [AD.has] using he
    rw [AD.get_eq hu]
    simp [this]

theorem Rep.removeNode {g : G κ ν} {s : OGraph κ ν} (h : Rep g s) (n : κ) (hn : n ∈ s.nodes) :
    ∃ g', removeNode g n = .ok g' ∧ Rep g' (s.removeNode n) := by
  obtain ⟨m, hm⟩ := exists_of_mem (d := g.succ) (k := n) (by rw [h.skeys]; exact hn)
  obtain ⟨p, hp⟩ := exists_of_mem (d := g.pred) (k := n) (by rw [h.pkeys]; exact hn)
  have hmn : m.keys.Nodup := by rw [h.succs n m hm]; exact successors_nodup h n
  have hpn : p.keys.Nodup := by rw [h.preds n p hp]; exact predecessors_nodup h n
  obtain ⟨pr, e1, e2, e3⟩ := delNested_loop n m.keys g.pred hmn (by
    intro u hu
    rw [h.succs n m hm, mem_successors] at hu
    obtain ⟨q, hq⟩ := exists_of_mem (d := g.pred) (k := u) (by rw [h.pkeys]; exact (h.ends _ hu).2)
    exact ⟨q, hq, by rw [h.preds u q hq, mem_predecessors]; exact hu⟩)
  -- pred[n] after the first loop
  have hback : ∃ bk, pr.get? n = some bk ∧ bk.keys = p.keys.filter (fun x => x ≠ n) := by
    rw [e3, hp]
    split
    · exact ⟨p.del n, rfl, AD.keys_del _ _⟩
    · rename_i hnn
      refine ⟨p, rfl, ?_⟩
      symm
      rw [List.filter_eq_self]
      intro x hx
      simp only [decide_eq_true_eq]
      rintro rfl
      rw [h.preds x p hp, mem_predecessors] at hx
      exact hnn (by rw [h.succs x m hm, mem_successors]; exact hx)
  obtain ⟨bk, hb1, hb2⟩ := hback
  have hmemb : ∀ u, u ∈ bk.keys ↔ (u, n) ∈ s.edges ∧ u ≠ n := by
    intro u
    rw [hb2, List.mem_filter, h.preds n p hp, mem_predecessors, decide_eq_true_eq]
  obtain ⟨sc, f1, f2, f3⟩ := delNested_loop n bk.keys (g.succ.del n) (by rw [hb2]; exact hpn.filter _) (by
    intro u hu
    rw [hmemb] at hu
    obtain ⟨q, hq⟩ := exists_of_mem (d := g.succ) (k := u) (by rw [h.skeys]; exact (h.ends _ hu.1).1)
    refine ⟨q, by rw [AD.get?_del, if_neg hu.2]; exact hq, ?_⟩
    rw [h.succs u q hq, mem_successors]; exact hu.1)
  have hnode : g.node.has n = true := by rw [has_iff, h.nkeys]; exact hn
  have hprwf : pr.keys = s.nodes := e2.trans h.pkeys
  unfold Graph.removeNode
  rw [AD.get_eq hm]
  simp only [hnode, if_true, e1, bind, Except.bind, AD.get_eq hb1, f1]
  refine ⟨_, rfl, ?_⟩
  have hSg : ∀ a, sc.get? a = if a = n then none else (g.succ.get? a).map (fun q => q.del n) := by
    intro a
    rw [f3, AD.get?_del]
    by_cases ha : a = n
    · subst ha; simp
    · simp only [ha, if_false]
      by_cases hab : a ∈ bk.keys
      · rw [if_pos hab]
      · rw [if_neg hab]
        cases hga : g.succ.get? a with
        | none => rfl
        | some q =>
          have : n ∉ q.keys := by
            rw [h.succs a q hga, mem_successors]
            intro hc; exact hab ((hmemb a).2 ⟨hc, ha⟩)
          simp only [Option.map_some, Option.some.injEq]
          unfold AD.del
          symm
          rw [List.filter_eq_self]
          intro e he
          simp only [decide_eq_true_eq]
          rintro rfl
          exact this (List.mem_map.2 ⟨e, he, rfl⟩)
  have hPg : ∀ a, (pr.del n).get? a = if a = n then none else (g.pred.get? a).map (fun q => q.del n) := by
    intro a
    rw [AD.get?_del, e3]
    by_cases ha : a = n
    · simp [ha]
    · simp only [ha, if_false]
      by_cases hab : a ∈ m.keys
      · rw [if_pos hab]
      · rw [if_neg hab]
        cases hga : g.pred.get? a with
        | none => rfl
        | some q =>
          have : n ∉ q.keys := by
            rw [h.preds a q hga, mem_predecessors]
            intro hc; exact hab (by rw [h.succs n m hm, mem_successors]; exact hc)
          simp only [Option.map_some, Option.some.injEq]
          unfold AD.del
          symm
          rw [List.filter_eq_self]
          intro e he
          simp only [decide_eq_true_eq]
          rintro rfl
          exact this (List.mem_map.2 ⟨e, he, rfl⟩)
  have hS : ∀ a b, (sc.get? a).bind (fun m => m.get? b) =
      if a = n ∨ b = n then none else succRef g a b := by
    intro a b
    rw [hSg]
    by_cases ha : a = n
    · simp [ha]
    · simp only [ha, if_false, false_or]
      unfold succRef
      cases g.succ.get? a with
      | none => simp
      | some q => simp only [Option.map_some, Option.bind_some, AD.get?_del]
  have hP : ∀ a b, ((pr.del n).get? b).bind (fun m => m.get? a) =
      if a = n ∨ b = n then none else predRef g a b := by
    intro a b
    rw [hPg]
    by_cases hb : b = n
    · simp [hb]
    · simp only [hb, if_false, or_false]
      unfold predRef
      cases g.pred.get? b with
      | none => simp
      | some q => simp only [Option.map_some, Option.bind_some, AD.get?_del]
  refine ⟨?_, ?_, ?_, h.nodup.filter _, h.enodup.filter _, ?_, ?_, ?_, ?_, ?_, ?_, ?_⟩
  · dsimp only [OGraph.removeNode]; rw [f2, AD.keys_del, h.skeys]
  · dsimp only [OGraph.removeNode]; rw [AD.keys_del, hprwf]
  · intro x
    dsimp only [OGraph.removeNode]
    rw [AD.keys_del, List.mem_filter, List.mem_filter, h.nkeys]
  · intro e he
    simp only [OGraph.removeNode, List.mem_filter, decide_eq_true_eq] at he ⊢
    have := h.ends e he.1
    exact ⟨⟨this.1, he.2.1⟩, ⟨this.2, he.2.2⟩⟩
  · intro a ma ha
    dsimp only at ha
    rw [hSg] at ha
    split at ha
    · simp at ha
    · rename_i han
      obtain ⟨q, hq, rfl⟩ := Option.map_eq_some_iff.1 ha
      rw [AD.keys_del, h.succs a q hq]
      have hf := successors_filter s (fun e => decide (e.1 ≠ n ∧ e.2 ≠ n)) a
        (fun b => decide (b ≠ n)) (by intro b; simp [han])
      exact hf.symm
  · intro a ma ha
    dsimp only at ha
    rw [hPg] at ha
    split at ha
    · simp at ha
    · rename_i han
      obtain ⟨q, hq, rfl⟩ := Option.map_eq_some_iff.1 ha
      rw [AD.keys_del, h.preds a q hq]
      have hf := predecessors_filter s (fun e => decide (e.1 ≠ n ∧ e.2 ≠ n)) a
        (fun b => decide (b ≠ n)) (by intro b; simp [han])
      exact hf.symm
  · intro a b
    refine (hS a b).trans (Eq.trans ?_ (hP a b).symm)
    rw [h.same]
  · intro a b a' b' r' h1 h2
    have h1' := (hS a b).symm.trans h1
    have h2' := (hS a' b').symm.trans h2
    split at h1'
    · simp at h1'
    · split at h2'
      · simp at h2'
      · exact h.inj a b a' b' r' h1' h2'
  · intro a b r' h1
    have h1' := (hS a b).symm.trans h1
    split at h1'
    · simp at h1'
    · exact h.lt a b r' h1'
  · intro a b r' h1
    have h1' := (hS a b).symm.trans h1
    split at h1'
    · simp at h1'
    · exact h.data a b r' h1'

theorem removeNode_absent {g : G κ ν} {s : OGraph κ ν} (h : Rep g s) (n : κ) (hn : n ∉ s.nodes) :
    removeNode g n = .error .networkXError := by
  rw [← h.skeys, AD.not_mem_keys_iff] at hn
  simp [Graph.removeNode, AD.get, hn]

theorem Rep.setEdgeAttr {g : G κ ν} {s : OGraph κ ν} (h : Rep g s) (u v : κ) (key : String) (val : ν)
    (he : (u, v) ∈ s.edges) :
    ∃ g', setEdgeAttr g u v key val = .ok g' ∧ Rep g' (s.setData u v ((s.data u v).set key val)) := by
  obtain ⟨hu, hv⟩ := h.ends _ he
  obtain ⟨m, hm⟩ := exists_of_mem (d := g.succ) (k := u) (by rw [h.skeys]; exact hu)
  obtain ⟨r, hr⟩ := exists_of_mem (d := m) (k := v) (by rw [h.succs u m hm, mem_successors]; exact he)
  have hsr : succRef g u v = some r := by unfold succRef; rw [hm]; exact hr
  unfold Graph.setEdgeAttr
  rw [AD.get_eq hm]
  simp only [AD.get_eq hr]
  refine ⟨_, rfl, ⟨h.skeys, h.pkeys, h.nkeys, h.nodup, h.enodup, h.ends, h.succs, h.preds, h.same, h.inj, h.lt, ?_⟩⟩
  intro a b r' h1
  have h1' : succRef g a b = some r' := h1
  dsimp only [OGraph.setData, upd]
  by_cases hrr : r' = r
  · subst hrr
    obtain ⟨rfl, rfl⟩ := h.inj a b u v r' h1' hsr
    simp only [if_true, and_self]
    rw [h.data a b r' h1']
  · rw [if_neg hrr, if_neg]
    · exact h.data a b r' h1'
    · rintro ⟨rfl, rfl⟩
      rw [hsr] at h1'
      simp only [Option.some.injEq] at h1'
      exact hrr h1'.symm

end Verif.Graph
