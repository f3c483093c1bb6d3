import Verif.Model.DaesoGraph
import Verif.Lemmas.Graph
import Verif.Spec.Tree
import Mathlib.Logic.Relation
import Mathlib.Data.Finset.Card
import Mathlib.Data.Finset.SDiff

set_option linter.unusedSectionVars false

namespace Verif.DaesoGraph
open Verif Verif.Graph Verif.Spec
variable {κ : Type} [DecidableEq κ]

/-! ### terminal_yield -/

/-- The loop invariant. -/
structure YInv (S : κ → List κ) (P : κ → Bool) (N : Finset κ) (x : κ) (s : YState κ) : Prop where
  seenN : ∀ v ∈ s.seen, v ∈ N
  queueN : ∀ v ∈ s.queue, v ∈ N
  nodup : s.seen.Nodup
  tail : ∀ v ∈ s.queue.tail, v ∈ s.seen
  terms : s.terminals = s.seen.filter P
  closed : ∀ v ∈ s.seen, v ∉ s.queue → ∀ w ∈ S v, w ∈ s.seen
  start : x ∈ s.seen ∨ x ∈ s.queue
  reachS : ∀ v ∈ s.seen, Relation.ReflTransGen (fun a b => b ∈ S a) x v
  reachQ : ∀ v ∈ s.queue, Relation.ReflTransGen (fun a b => b ∈ S a) x v

/-- Number of unseen nodes. -/
def unseen (N : Finset κ) (s : YState κ) : Nat := (N \ s.seen.toFinset).card

/-- The loop variant. -/
def yvar (N : Finset κ) (s : YState κ) : Nat :=
  2 * unseen N s + s.queue.length - (match s.queue with
    | [] => 0
    | v :: _ => if v ∈ s.seen then 0 else 2)

theorem unseen_visit {N : Finset κ} {s s' : YState κ} {v : κ} (hv : v ∈ N) (hs : v ∉ s.seen)
    (h' : s'.seen = s.seen ++ [v]) : unseen N s' + 1 = unseen N s := by
  unfold unseen
  rw [h']
  have : N \ (s.seen ++ [v]).toFinset = (N \ s.seen.toFinset).erase v := by
    ext a
    simp only [Finset.mem_sdiff, Finset.mem_erase, List.mem_toFinset, List.mem_append, List.mem_singleton]
    tauto
  rw [this, Finset.card_erase_add_one]
  simp [hv, hs]

theorem yield_loop {succs : κ → Py (List κ)} {T : κ → Py Bool} (S : κ → List κ) (P : κ → Bool) (N : Finset κ)
    (hS : ∀ v ∈ N, succs v = .ok (S v)) (hN : ∀ v ∈ N, ∀ w ∈ S v, w ∈ N) (hT : ∀ v ∈ N, T v = .ok (P v))
    (x : κ) (hx : x ∈ N) (fuel : Nat) (hf : 2 * N.card < fuel) :
    ∃ s, yieldLoop succs T fuel ⟨[x], [], []⟩ = .ok s ∧ YInv S P N x s ∧ s.queue = [] := by
  unfold yieldLoop
  refine Py.whileLoop_inv (YInv S P N x) (yvar N) _ ?_ fuel _ ?_ ?_
  · intro s h
    obtain ⟨q, sn, ts⟩ := s
    cases q with
    | nil => left; exact ⟨by simp, h, rfl⟩
    | cons v q =>
      right
      refine ⟨by simp, ?_⟩
      have hvN : v ∈ N := h.queueN v (by simp)
      -- first the visit
      have hvis : ∃ s1, visit T v ⟨v :: q, sn, ts⟩ = .ok s1 ∧ YInv S P N x s1 ∧ s1.queue = v :: q ∧ v ∈ s1.seen ∧
          2 * unseen N s1 + (q.length + 1) ≤ yvar N ⟨v :: q, sn, ts⟩ := by
        unfold visit
        by_cases hs : v ∈ sn
        · refine ⟨_, by simp [hs], h, rfl, hs, ?_⟩
          simp [yvar, hs]
        · simp only [hs, if_false, hT v hvN]
          refine ⟨_, rfl, ?_, rfl, by simp, ?_⟩
          · refine ⟨?_, h.queueN, ?_, ?_, ?_, ?_, ?_, ?_, h.reachQ⟩
            · intro w hw
              simp only [List.mem_append, List.mem_singleton] at hw
              rcases hw with hw | rfl
              · exact h.seenN w hw
              · exact hvN
            · dsimp only
              rw [List.nodup_append]
              refine ⟨h.nodup, by simp, ?_⟩
              intro a ha b hb
              simp only [List.mem_singleton] at hb
              subst hb; rintro rfl; exact hs ha
            · intro w hw
              exact List.mem_append_left _ (h.tail w hw)
            · dsimp only
              rw [List.filter_append]
              have := h.terms
              dsimp only at this
              rw [this]
              by_cases hp : P v = true <;> simp [hp]
            · intro w hw hwq z hz
              simp only [List.mem_append, List.mem_singleton] at hw ⊢
              rcases hw with hw | rfl
              · exact Or.inl (h.closed w hw hwq z hz)
              · exact absurd (by simp) hwq
            · rcases h.start with h1 | h1
              · exact Or.inl (List.mem_append_left _ h1)
              · exact Or.inr h1
            · intro w hw
              simp only [List.mem_append, List.mem_singleton] at hw
              rcases hw with hw | rfl
              · exact h.reachS w hw
              · exact h.reachQ w (by simp)
          · have := unseen_visit (s := ⟨v :: q, sn, ts⟩) (s' := ⟨v :: q, sn ++ [v], if P v then ts ++ [v] else ts⟩)
              hvN hs rfl
            simp only [yvar, hs, if_false, List.length_cons]
            omega
      obtain ⟨s1, e1, hI, hq, hvs, hmu⟩ := hvis
      simp only [yieldBody, e1, advance, hS v hvN]
      cases hfnd : (S v).find? (fun w => decide (w ∉ s1.seen)) with
      | some w =>
        have hw1 : w ∈ S v := List.mem_of_find?_eq_some hfnd
        have hw2 : w ∉ s1.seen := by simpa using List.find?_some hfnd
        refine ⟨_, rfl, ?_, ?_⟩
        · refine ⟨hI.seenN, ?_, hI.nodup, ?_, hI.terms, ?_, ?_, hI.reachS, ?_⟩
          · intro a ha
            simp only [List.mem_cons] at ha
            rcases ha with rfl | ha
            · exact hN v hvN _ hw1
            · exact hI.queueN a ha
          · intro a ha
            simp only [List.tail_cons] at ha
            rw [hq, List.mem_cons] at ha
            rcases ha with rfl | ha
            · exact hvs
            · exact hI.tail a (by rw [hq]; exact ha)
          · intro a ha haq b hb
            exact hI.closed a ha (fun hc => haq (by simp [hc])) b hb
          · rcases hI.start with h1 | h1
            · exact Or.inl h1
            · exact Or.inr (by simp [h1])
          · intro a ha
            simp only [List.mem_cons] at ha
            rcases ha with rfl | ha
            · exact (hI.reachS v hvs).tail hw1
            · exact hI.reachQ a ha
        · refine lt_of_lt_of_le ?_ hmu
          simp only [yvar, hw2, if_false, hq, List.length_cons]
          have : unseen N { s1 with queue := w :: v :: q } = unseen N s1 := rfl
          rw [this]
          have hpos : 0 < unseen N s1 := by
            unfold unseen
            rw [Finset.card_pos]
            exact ⟨w, by simp [hN v hvN w hw1, hw2]⟩
          omega
      | none =>
        have hall : ∀ w ∈ S v, w ∈ s1.seen := by
          rw [List.find?_eq_none] at hfnd
          intro w hw
          have := hfnd w hw
          simpa using this
        refine ⟨_, rfl, ?_, ?_⟩
        · refine ⟨hI.seenN, ?_, hI.nodup, ?_, hI.terms, ?_, ?_, hI.reachS, ?_⟩
          · intro a ha
            exact hI.queueN a (List.mem_of_mem_tail ha)
          · intro a ha
            exact hI.tail a (List.mem_of_mem_tail ha)
          · intro a ha haq b hb
            rw [hq] at haq
            simp only [List.tail_cons] at haq
            by_cases hav : a = v
            · subst hav; exact hall b hb
            · refine hI.closed a ha ?_ b hb
              rw [hq, List.mem_cons]
              rintro (h' | h')
              · exact hav h'
              · exact haq h'
          · rcases hI.start with h1 | h1
            · exact Or.inl h1
            · left
              rw [hq, List.mem_cons] at h1
              rcases h1 with rfl | h1
              · exact hvs
              · exact hI.tail _ (by rw [hq]; exact h1)
          · intro a ha
            exact hI.reachQ a (List.mem_of_mem_tail ha)
        · refine lt_of_lt_of_le ?_ hmu
          have : unseen N { s1 with queue := s1.queue.tail } = unseen N s1 := rfl
          simp only [yvar, hq, List.tail_cons]
          have h3 : unseen N { s1 with queue := q } = unseen N s1 := rfl
          have h4 : unseen N (⟨q, s1.seen, s1.terminals⟩ : YState κ) = unseen N s1 := rfl
          rw [h4]
          split <;> omega
  · constructor <;> simp [hx, Relation.ReflTransGen.refl]
  · have h1 : unseen N (⟨[x], [], []⟩ : YState κ) = N.card := by simp [unseen]
    have : 0 < N.card := Finset.card_pos.2 ⟨x, hx⟩
    simp only [yvar, h1]
    simp; omega

/-- At the end the seen nodes are the reachable ones. -/
theorem YInv.reach {S : κ → List κ} {P : κ → Bool} {N : Finset κ} {x : κ} {s : YState κ} (h : YInv S P N x s)
    (hq : s.queue = []) (v : κ) : v ∈ s.seen ↔ Relation.ReflTransGen (fun a b => b ∈ S a) x v := by
  constructor
  · exact h.reachS v
  · intro hr
    induction hr with
    | refl =>
      rcases h.start with h1 | h1
      · exact h1
      · rw [hq] at h1; simp at h1
    | tail _ hbc ih => exact h.closed _ ih (by rw [hq]; simp) _ hbc

/-! ### Order on trees -/

/-- The loop gets from one state to another in finitely many steps. -/
def Steps (succs : κ → Py (List κ)) (T : κ → Py Bool) (s s' : YState κ) : Prop :=
  ∃ k, ∀ fuel, yieldLoop succs T (k + fuel) s = yieldLoop succs T fuel s'

theorem Steps.refl {succs : κ → Py (List κ)} {T : κ → Py Bool} (s : YState κ) : Steps succs T s s := ⟨0, by simp⟩

theorem Steps.trans {succs : κ → Py (List κ)} {T : κ → Py Bool} {a b c : YState κ} (h1 : Steps succs T a b)
    (h2 : Steps succs T b c) : Steps succs T a c := by
  obtain ⟨k1, e1⟩ := h1
  obtain ⟨k2, e2⟩ := h2
  refine ⟨k1 + k2, fun fuel => ?_⟩
  rw [Nat.add_assoc, e1, e2]

theorem Steps.one {succs : κ → Py (List κ)} {T : κ → Py Bool} {s s' : YState κ} (hq : s.queue ≠ [])
    (hb : yieldBody succs T s = .ok s') : Steps succs T s s' := by
  refine ⟨1, fun fuel => ?_⟩
  rw [Nat.add_comm]
  simp [yieldLoop, Py.whileLoop, hq, hb]

theorem root_mem_names : ∀ t : OTree κ, t.root ∈ t.names
  | .node x ts => by simp [OTree.root, OTree.names]

theorem find_roots (seen : List κ) : ∀ (done rest : List (OTree κ)), (∀ t ∈ done, t.root ∈ seen) →
    (∀ t ∈ rest, t.root ∉ seen) →
    ((done ++ rest).map OTree.root).find? (fun w => decide (w ∉ seen)) = rest.head?.map OTree.root := by
  intro done rest h1 h2
  rw [List.map_append, List.find?_append]
  have : (done.map OTree.root).find? (fun w => decide (w ∉ seen)) = none := by
    rw [List.find?_eq_none]
    intro w hw
    obtain ⟨t, ht, rfl⟩ := List.mem_map.1 hw
    simpa using h1 t ht
  rw [this]
  cases rest with
  | nil => rfl
  | cons t rest =>
    have := h2 t (by simp)
    simp [List.find?_cons, this]

theorem namesL_append (a b : List (OTree κ)) : OTree.namesL (a ++ b) = OTree.namesL a ++ OTree.namesL b := by
  induction a with
  | nil => simp [OTree.namesL]
  | cons t a ih => simp [OTree.namesL, ih]

theorem mem_namesL {t : OTree κ} {ts : List (OTree κ)} (h : t ∈ ts) {x : κ} (hx : x ∈ t.names) :
    x ∈ OTree.namesL ts := by
  induction ts with
  | nil => simp at h
  | cons t' ts ih =>
    simp only [OTree.namesL, List.mem_append]
    rw [List.mem_cons] at h
    rcases h with rfl | h
    · exact Or.inl hx
    · exact Or.inr (ih h)

mutual
theorem tree_steps {succs : κ → Py (List κ)} {T : κ → Py Bool} (S : κ → List κ) (P : κ → Bool) :
    ∀ (t : OTree κ) (stack seen terms : List κ), (∀ x ∈ t.names, succs x = .ok (S x) ∧ T x = .ok (P x)) →
      t.Draws S → t.names.Nodup → (∀ x ∈ t.names, x ∉ seen) →
      Steps succs T ⟨t.root :: stack, seen, terms⟩ ⟨stack, seen ++ t.names, terms ++ t.names.filter P⟩
  | .node x ts, stack, seen, terms, hok, hd, hnd, hns => by
    simp only [OTree.names, List.nodup_cons] at hnd
    simp only [OTree.names, List.mem_cons, forall_eq_or_imp] at hok hns
    simp only [OTree.Draws] at hd
    have hroots : ∀ t ∈ ts, t.root ∉ seen ++ [x] := by
      intro t ht
      have h1 := mem_namesL ht (root_mem_names t)
      rw [List.mem_append, List.mem_singleton]
      rintro (hc | hc)
      · exact hns.2 _ h1 hc
      · exact hnd.1 (hc ▸ h1)
    have hfind := find_roots (seen ++ [x]) [] ts (by simp) hroots
    simp only [List.nil_append] at hfind
    have hforest := forest_steps S P ts [] x stack (seen ++ [x]) (if P x then terms ++ [x] else terms)
      (by simpa using hd.1) hok.1.1 hok.2 hd.2 hnd.2
      (by
        intro y hy hc
        rw [List.mem_append, List.mem_singleton] at hc
        rcases hc with hc | rfl
        · exact hns.2 y hy hc
        · exact hnd.1 hy) (by simp) (by simp)
    obtain ⟨s1, hadv, hst⟩ := hforest
    have h1 : yieldBody succs T ⟨x :: stack, seen, terms⟩ = .ok s1 := by
      simp only [yieldBody, visit, hns.1, if_false, hok.1.2]
      exact hadv
    refine (Steps.one (by simp [OTree.root]) h1).trans ?_
    have e1 : seen ++ OTree.names (.node x ts) = seen ++ [x] ++ OTree.namesL ts := by simp [OTree.names]
    have e2 : terms ++ (OTree.names (.node x ts)).filter P =
        (if P x then terms ++ [x] else terms) ++ (OTree.namesL ts).filter P := by
      simp only [OTree.names, List.filter_cons]
      by_cases hp : P x = true <;> simp [hp]
    rw [e1, e2]
    exact hst
theorem forest_steps {succs : κ → Py (List κ)} {T : κ → Py Bool} (S : κ → List κ) (P : κ → Bool) :
    ∀ (rest done : List (OTree κ)) (x : κ) (stack seen terms : List κ),
      S x = (done ++ rest).map OTree.root → succs x = .ok (S x) →
      (∀ y ∈ OTree.namesL rest, succs y = .ok (S y) ∧ T y = .ok (P y)) →
      OTree.DrawsL S rest → (OTree.namesL rest).Nodup → (∀ y ∈ OTree.namesL rest, y ∉ seen) →
      (∀ t ∈ done, t.root ∈ seen) → x ∈ seen →
      ∃ s1, advance succs x ⟨x :: stack, seen, terms⟩ = .ok s1 ∧
        Steps succs T s1 ⟨stack, seen ++ OTree.namesL rest, terms ++ (OTree.namesL rest).filter P⟩
  | [], done, x, stack, seen, terms, hS, hsx, _, _, _, _, hdone, _ => by
    have hfind := find_roots seen done [] hdone (by simp)
    rw [← hS] at hfind
    refine ⟨⟨stack, seen, terms⟩, ?_, ?_⟩
    · simp only [advance, hsx, hfind]; rfl
    · simpa [OTree.namesL] using Steps.refl _
  | t :: rest, done, x, stack, seen, terms, hS, hsx, hok, hd, hnd, hns, hdone, hxs => by
    simp only [OTree.namesL, List.nodup_append] at hnd
    simp only [OTree.namesL, List.mem_append] at hok hns
    simp only [OTree.DrawsL] at hd
    have hfind := find_roots seen done (t :: rest) hdone (by
      intro t' ht'
      exact hns _ (by
        have := mem_namesL ht' (root_mem_names t')
        simpa [OTree.namesL] using this))
    rw [← hS] at hfind
    refine ⟨⟨t.root :: x :: stack, seen, terms⟩, ?_, ?_⟩
    · simp only [advance, hsx, hfind]; rfl
    · have h1 := tree_steps (succs := succs) (T := T) S P t (x :: stack) seen terms (fun y hy => hok y (Or.inl hy))
        hd.1 hnd.1 (fun y hy => hns y (Or.inl hy))
      obtain ⟨s2, e1, e2⟩ := forest_steps (succs := succs) (T := T) S P rest (done ++ [t]) x stack (seen ++ t.names)
        (terms ++ t.names.filter P) (by rw [hS]; simp) hsx (fun y hy => hok y (Or.inr hy)) hd.2 hnd.2.1
        (by
          intro y hy hc
          rw [List.mem_append] at hc
          rcases hc with hc | hc
          · exact hns y (Or.inr hy) hc
          · exact hnd.2.2 y hc y hy rfl)
        (by
          intro t' ht'
          rw [List.mem_append, List.mem_singleton] at ht'
          rw [List.mem_append]
          rcases ht' with ht' | rfl
          · exact Or.inl (hdone t' ht')
          · exact Or.inr (root_mem_names t'))
        (List.mem_append_left _ hxs)
      have h2 : yieldBody succs T ⟨x :: stack, seen ++ t.names, terms ++ t.names.filter P⟩ = .ok s2 := by
        simp only [yieldBody, visit, List.mem_append_left t.names hxs, if_true]
        exact e1
      have h3 := h1.trans ((Steps.one (by simp) h2).trans e2)
      simpa [OTree.namesL, List.append_assoc] using h3
end

mutual
theorem names_filter_leaves (S : κ → List κ) (Q : κ → Bool) :
    ∀ (t : OTree κ), t.Draws S → t.names.filter (fun x => decide (S x = []) && Q x) = t.leaves.filter Q
  | .node x ts, hd => by
    simp only [OTree.Draws] at hd
    cases ts with
    | nil =>
      have : S x = [] := hd.1
      simp [OTree.names, OTree.namesL, OTree.leaves, List.filter_cons, this]
    | cons t ts =>
      have : S x ≠ [] := by rw [hd.1]; simp
      simp only [OTree.names, OTree.leaves, List.filter_cons, this, decide_false, Bool.false_and,
        Bool.false_eq_true, if_false]
      have := namesL_filter_leaves S Q (t :: ts) hd.2
      simpa [OTree.leavesL] using this
theorem namesL_filter_leaves (S : κ → List κ) (Q : κ → Bool) :
    ∀ (ts : List (OTree κ)), OTree.DrawsL S ts →
      (OTree.namesL ts).filter (fun x => decide (S x = []) && Q x) = (OTree.leavesL ts).filter Q
  | [], _ => rfl
  | t :: ts, hd => by
    simp only [OTree.DrawsL] at hd
    simp only [OTree.namesL, OTree.leavesL, List.filter_append]
    rw [names_filter_leaves S Q t hd.1, namesL_filter_leaves S Q ts hd.2]
end

/-! ### Strings -/

theorem splitSpace_ne (s : List Char) : splitSpace s ≠ [] := by
  cases s with
  | nil => simp [splitSpace]
  | cons c cs =>
    simp only [splitSpace]
    split
    · simp
    · split <;> simp

theorem join_splitSpace (s : List Char) : join (splitSpace s) = s := by
  induction s with
  | nil => rfl
  | cons c cs ih =>
    simp only [splitSpace]
    split
    · rename_i h
      subst h
      cases hh : splitSpace cs with
      | nil => exact absurd hh (splitSpace_ne cs)
      | cons t ts => simp only [join, List.nil_append]; rw [← hh, ih]
    · cases hh : splitSpace cs with
      | nil => exact absurd hh (splitSpace_ne cs)
      | cons t ts =>
        rw [hh] at ih
        simp only
        cases ts with
        | nil => simp only [join] at ih ⊢; rw [ih]
        | cons t' ts => simp only [join, List.cons_append] at ih ⊢; rw [ih]

theorem splitSpace_word {t : List Char} (h : ' ' ∉ t) : splitSpace t = [t] := by
  induction t with
  | nil => rfl
  | cons c cs ih =>
    simp only [List.mem_cons, not_or] at h
    have : c ≠ ' ' := fun hc => h.1 hc.symm
    simp [splitSpace, this, ih h.2]

theorem splitSpace_append {t : List Char} (h : ' ' ∉ t) (r : List Char) :
    splitSpace (t ++ ' ' :: r) = t :: splitSpace r := by
  induction t with
  | nil => simp [splitSpace]
  | cons c cs ih =>
    simp only [List.mem_cons, not_or] at h
    have : c ≠ ' ' := fun hc => h.1 hc.symm
    simp [splitSpace, this, ih h.2]

theorem splitSpace_join {ts : List (List Char)} (hne : ts ≠ []) (h : ∀ t ∈ ts, ' ' ∉ t) :
    splitSpace (join ts) = ts := by
  induction ts with
  | nil => exact absurd rfl hne
  | cons t ts ih =>
    cases ts with
    | nil => exact splitSpace_word (h t (by simp))
    | cons t' ts =>
      simp only [join]
      rw [splitSpace_append (h t (by simp)), ih (by simp) (fun x hx => h x (by simp [hx]))]

/-! `split()` -/

theorem splitWs_words (ws : Char → Bool) (s : List Char) :
    ∀ t ∈ splitWs ws s, t ≠ [] ∧ ∀ c ∈ t, ws c = false := by
  induction s with
  | nil => simp [splitWs]
  | cons c cs ih =>
    unfold splitWs
    split
    · exact ih
    · rename_i hc
      have hc' : ws c = false := by simpa using hc
      split
      · simp [hc']
      · rename_i d cs'
        split
        · intro t ht
          rw [List.mem_cons] at ht
          rcases ht with rfl | ht
          · simp [hc']
          · exact ih t ht
        · split
          · rename_i t0 ts h0
            intro t ht
            rw [h0] at ih
            rw [List.mem_cons] at ht
            rcases ht with rfl | ht
            · refine ⟨by simp, ?_⟩
              intro x hx
              rw [List.mem_cons] at hx
              rcases hx with rfl | hx
              · exact hc'
              · exact (ih t0 (by simp)).2 x hx
            · exact ih t (by simp [ht])
          · simp [hc']

theorem splitWs_word {ws : Char → Bool} {t : List Char} (hne : t ≠ []) (h : ∀ c ∈ t, ws c = false) :
    splitWs ws t = [t] := by
  induction t with
  | nil => exact absurd rfl hne
  | cons c cs ih =>
    have hc := h c (by simp)
    unfold splitWs
    rw [if_neg (by simp [hc])]
    cases cs with
    | nil => rfl
    | cons d cs' =>
      have hd := h d (by simp)
      simp only [hd, Bool.false_eq_true, if_false]
      rw [ih (by simp) (fun x hx => h x (by simp [hx]))]

theorem splitWs_skip {ws : Char → Bool} {c : Char} (h : ws c = true) (cs : List Char) :
    splitWs ws (c :: cs) = splitWs ws cs := by
  rw [splitWs.eq_def]
  simp [h]

theorem splitWs_append {ws : Char → Bool} (hsp : ws ' ' = true) {t : List Char} (hne : t ≠ [])
    (h : ∀ c ∈ t, ws c = false) (r : List Char) : splitWs ws (t ++ ' ' :: r) = t :: splitWs ws r := by
  induction t with
  | nil => exact absurd rfl hne
  | cons c cs ih =>
    have hc := h c (by simp)
    cases cs with
    | nil =>
      simp only [List.cons_append, List.nil_append]
      rw [splitWs, if_neg (by simp [hc])]
      simp only [hsp, if_true]
      rw [splitWs_skip hsp]
    | cons d cs' =>
      have hd := h d (by simp)
      have := ih (by simp) (fun x hx => h x (by simp [hx]))
      simp only [List.cons_append] at this ⊢
      rw [splitWs, if_neg (by simp [hc])]
      simp only [hd, Bool.false_eq_true, if_false]
      rw [this]

theorem splitWs_join {ws : Char → Bool} (hsp : ws ' ' = true) (ts : List (List Char))
    (h : ∀ t ∈ ts, t ≠ [] ∧ ∀ c ∈ t, ws c = false) : splitWs ws (join ts) = ts := by
  induction ts with
  | nil => rfl
  | cons t ts ih =>
    cases ts with
    | nil => exact splitWs_word (h t (by simp)).1 (h t (by simp)).2
    | cons t' ts =>
      simp only [join]
      rw [splitWs_append hsp (h t (by simp)).1 (h t (by simp)).2, ih (fun x hx => h x (by simp [hx]))]

end Verif.DaesoGraph
