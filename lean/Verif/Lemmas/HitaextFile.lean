import Verif.Spec.HitaextFile
import Verif.Lemmas.Base

namespace Verif.HitaextFile
open Verif Verif.Etree Verif.Spec.HitaextFile

set_option linter.unusedSectionVars false

theorem reached_cons (t : String) (ts : List String) (e : Elem) :
    reached (t :: ts) e = (e.children.filter fun c => c.tag = t).flatMap (reached ts) := rfl

theorem findKids_head (t : String) (g : Elem → Option Elem) (h : Elem → List Elem) (hg : ∀ e, g e = (h e).head?) :
    ∀ cs : List Elem, findKids t g cs = ((cs.filter fun c => c.tag = t).flatMap h).head?
  | [] => rfl
  | c :: cs => by
    unfold findKids
    by_cases hc : c.tag = t
    · simp only [hc, if_true, List.filter_cons, decide_true, List.flatMap_cons]
      rw [hg c]
      cases h c with
      | nil => simpa using findKids_head t g h hg cs
      | cons x xs => simp
    · simp only [hc, if_false, List.filter_cons, decide_false]
      simpa using findKids_head t g h hg cs

theorem find_eq : ∀ (p : List String) (e : Elem), find p e = (reached p e).head?
  | [], e => rfl
  | t :: ts, e => by
    rw [reached_cons]
    exact findKids_head t (find ts) (reached ts) (find_eq ts) e.children

theorem setChildren_tag (e : Elem) (c : List Elem) : (setChildren e c).tag = e.tag := by cases e; rfl
theorem setChildren_children (e : Elem) (c : List Elem) : (setChildren e c).children = c := by cases e; rfl
theorem setChildren_attrib (e : Elem) (c : List Elem) : (setChildren e c).attrib = e.attrib := by cases e; rfl
theorem setChildren_text (e : Elem) (c : List Elem) : (setChildren e c).text = e.text := by cases e; rfl
theorem setAttr_tag (e : Elem) (k v : String) : (setAttr e k v).tag = e.tag := by cases e; rfl
theorem setAttr_children (e : Elem) (k v : String) : (setAttr e k v).children = e.children := by cases e; rfl
theorem setAttr_attrib (e : Elem) (k v : String) : (setAttr e k v).attrib = e.attrib.set k v := by cases e; rfl
theorem setText_tag (e : Elem) (x : Option Text) : (setText e x).tag = e.tag := by cases e; rfl
theorem setText_text (e : Elem) (x : Option Text) : (setText e x).text = x := by cases e; rfl

/-- Two paths that part at some tag. -/
inductive Parts : List String → List String → Prop
  | here {a b : String} {p q} : a ≠ b → Parts (a :: p) (b :: q)
  | there {a : String} {p q} : Parts p q → Parts (a :: p) (a :: q)

/-- What an update at a path does to the elements reached. -/
structure Updates (p : List String) (f : Elem → Elem) (e e' : Elem) : Prop where
  tag : e'.tag = e.tag
  attrib : p ≠ [] → e'.attrib = e.attrib
  at_ : ∃ x xs, reached p e = x :: xs ∧ reached p e' = f x :: xs
  other : ∀ q, Parts p q → reached q e' = reached q e

theorem updKids_some {t : String} {p : List String} {f : Elem → Elem}
    (ih : ∀ e, reached p e ≠ [] → ∃ e', update p f e = some e' ∧ Updates p f e e')
    (ihn : ∀ e, reached p e = [] → update p f e = none) :
    ∀ cs : List Elem, (cs.filter fun c => c.tag = t).flatMap (reached p) ≠ [] →
      ∃ cs', updKids t (update p f) cs = some cs' ∧
        (∃ x xs, (cs.filter fun c => c.tag = t).flatMap (reached p) = x :: xs ∧
          (cs'.filter fun c => c.tag = t).flatMap (reached p) = f x :: xs) ∧
        (∀ q, Parts p q → (cs'.filter fun c => c.tag = t).flatMap (reached q) =
          (cs.filter fun c => c.tag = t).flatMap (reached q)) ∧
        (∀ s, s ≠ t → cs'.filter (fun c => c.tag = s) = cs.filter fun c => c.tag = s)
  | [], h => absurd rfl h
  | c :: cs, h => by
    unfold updKids
    by_cases hc : c.tag = t
    · simp only [hc, if_true]
      by_cases hr : reached p c = []
      · rw [ihn c hr]
        simp only [List.filter_cons, hc, decide_true, if_true, List.flatMap_cons, hr, List.nil_append] at h ⊢
        obtain ⟨cs', h1, h2, h3, h4⟩ := updKids_some ih ihn cs h
        refine ⟨c :: cs', by simp only [h1, Option.map_some], ?_, ?_, ?_⟩
        · simpa only [List.filter_cons, hc, decide_true, if_true, List.flatMap_cons, hr, List.nil_append] using h2
        · intro q hq
          simp only [List.filter_cons, hc, decide_true, if_true, List.flatMap_cons, h3 q hq]
        · intro s hs
          have : ¬ t = s := fun e => hs e.symm
          simp only [List.filter_cons, hc, this, decide_false, h4 s hs]
      · obtain ⟨c', h1, hu⟩ := ih c hr
        rw [h1]
        obtain ⟨x, xs, hx, hx'⟩ := hu.at_
        have hc' : c'.tag = t := by rw [hu.tag, hc]
        refine ⟨c' :: cs, rfl, ⟨x, xs ++ (cs.filter fun c => c.tag = t).flatMap (reached p), ?_, ?_⟩, ?_, ?_⟩
        · simp only [List.filter_cons, hc, decide_true, if_true, List.flatMap_cons, hx, List.cons_append]
        · simp only [List.filter_cons, hc', decide_true, if_true, List.flatMap_cons, hx', List.cons_append]
        · intro q hq
          simp only [List.filter_cons, hc, hc', decide_true, if_true, List.flatMap_cons, hu.other q hq]
        · intro s hs
          have : ¬ t = s := fun e => hs e.symm
          simp only [List.filter_cons, hc, hc', this, decide_false, Bool.false_eq_true, if_false]
    · simp only [hc, if_false]
      have h' : (cs.filter fun c => c.tag = t).flatMap (reached p) ≠ [] := by
        simpa only [List.filter_cons, hc, decide_false, Bool.false_eq_true, if_false] using h
      obtain ⟨cs', h1, h2, h3, h4⟩ := updKids_some ih ihn cs h'
      refine ⟨c :: cs', by simp only [h1, Option.map_some], ?_, ?_, ?_⟩
      · simpa only [List.filter_cons, hc, decide_false, Bool.false_eq_true, if_false] using h2
      · intro q hq
        simpa only [List.filter_cons, hc, decide_false, Bool.false_eq_true, if_false] using h3 q hq
      · intro s hs
        by_cases hcs : c.tag = s
        · simp only [List.filter_cons, hcs, decide_true, if_true, h4 s hs]
        · simp only [List.filter_cons, hcs, decide_false, Bool.false_eq_true, if_false, h4 s hs]

theorem updKids_none {t : String} {p : List String} {f : Elem → Elem}
    (ihn : ∀ e, reached p e = [] → update p f e = none) :
    ∀ cs : List Elem, (cs.filter fun c => c.tag = t).flatMap (reached p) = [] → updKids t (update p f) cs = none
  | [], _ => rfl
  | c :: cs, h => by
    unfold updKids
    by_cases hc : c.tag = t
    · simp only [List.filter_cons, hc, decide_true, if_true, List.flatMap_cons, List.append_eq_nil_iff] at h ⊢
      rw [ihn c h.1, updKids_none ihn cs h.2]; rfl
    · simp only [List.filter_cons, hc, decide_false, Bool.false_eq_true, if_false] at h ⊢
      rw [updKids_none ihn cs h]; rfl

theorem update_spec {f : Elem → Elem} (hf : ∀ e, (f e).tag = e.tag) : ∀ p : List String,
    (∀ e, reached p e ≠ [] → ∃ e', update p f e = some e' ∧ Updates p f e e') ∧
    (∀ e, reached p e = [] → update p f e = none)
  | [] => ⟨fun e _ => ⟨f e, rfl, hf e, fun h => absurd rfl h, ⟨e, [], rfl, rfl⟩, fun q hq => by cases hq⟩,
      fun e h => by simp [reached] at h⟩
  | t :: ts => by
    obtain ⟨ih, ihn⟩ := update_spec hf ts
    constructor
    · intro e h
      obtain ⟨cs', h1, h2, h3, h4⟩ := updKids_some ih ihn e.children (by simpa only [reached_cons] using h)
      refine ⟨setChildren e cs', by simp only [update, h1, Option.map_some], setChildren_tag _ _,
        fun _ => setChildren_attrib _ _, ?_, ?_⟩
      · obtain ⟨x, xs, hx, hx'⟩ := h2
        exact ⟨x, xs, by rw [reached_cons, hx], by rw [reached_cons, setChildren_children, hx']⟩
      · intro q hq
        cases hq with
        | here hne => rw [reached_cons, reached_cons, setChildren_children, h4 _ (fun e => hne e.symm)]
        | there hq => rw [reached_cons, reached_cons, setChildren_children, h3 _ hq]
    · intro e h
      simp only [update, updKids_none ihn e.children (by simpa only [reached_cons] using h), Option.map_none]

theorem reached_append : ∀ (p q : List String) (e : Elem), reached (p ++ q) e = (reached p e).flatMap (reached q)
  | [], q, e => by simp [reached]
  | t :: ts, q, e => by
    simp only [List.cons_append, reached_cons, List.flatMap_assoc]
    congr 1
    funext c
    exact reached_append ts q c

/-! ### init_elems -/

/-- The element for a tag that has been met a number of times. -/
def tagElem (t : String) (n : Nat) : Elem := setAttr (defaultElem t) "uniq" (if n = 1 then "True" else "False")

theorem tagElem_set (t : String) (n : Nat) (hn : 0 < n) : setAttr (tagElem t n) "uniq" "False" = tagElem t (n + 1) := by
  have h1 : ¬ n + 1 = 1 := by omega
  unfold tagElem defaultElem
  rw [if_neg h1]
  split <;> rfl

theorem eraseDups_snoc (l : List String) (a : String) :
    (l ++ [a]).eraseDups = if a ∈ l then l.eraseDups else l.eraseDups ++ [a] := by
  rw [List.eraseDups_append]
  by_cases h : a ∈ l
  · simp [List.removeAll, h]
  · simp [List.removeAll, h, List.eraseDups_cons]

theorem nodup_eraseDups (l : List String) : l.eraseDups.Nodup := by
  induction l using List.reverseRecOn with
  | nil => simp
  | append_singleton l a ih =>
    rw [eraseDups_snoc]
    split
    · exact ih
    · rename_i h
      rw [List.nodup_append]
      refine ⟨ih, by simp, ?_⟩
      intro x hx y hy
      simp only [List.mem_singleton] at hy
      subst hy
      intro e
      subst e
      exact h (List.mem_eraseDups.1 hx)

theorem init_inv (base : List Elem) (l : List String) :
    ((l.foldl initStep (base, [])).1 = base ++ l.eraseDups.map fun t => tagElem t (l.count t)) ∧
    (∀ t, (l.foldl initStep (base, [])).2.get? t =
      if t ∈ l then some (base.length + l.eraseDups.idxOf t) else none) := by
  induction l using List.reverseRecOn with
  | nil => simp
  | append_singleton l a ih =>
    rw [List.foldl_append]
    simp only [List.foldl_cons, List.foldl_nil]
    generalize l.foldl initStep (base, []) = st at ih ⊢
    obtain ⟨ih1, ih2⟩ := ih
    unfold initStep
    rw [ih2 a]
    by_cases ha : a ∈ l
    · simp only [ha, if_true, eraseDups_snoc]
      constructor
      · rw [ih1]
        have hi : l.eraseDups.idxOf a < l.eraseDups.length := List.idxOf_lt_length_iff.2 (List.mem_eraseDups.2 ha)
        apply List.ext_getElem
        · simp
        · intro i h1 h2
          rw [List.getElem_modify]
          simp only [List.length_modify, List.length_append, List.length_map] at h1
          by_cases hb : i < base.length
          · rw [List.getElem_append_left (by simpa using hb), List.getElem_append_left (by simpa using hb)]
            rw [if_neg (by omega)]
          · rw [List.getElem_append_right (by omega), List.getElem_append_right (by omega)]
            simp only [List.getElem_map]
            by_cases he : base.length + l.eraseDups.idxOf a = i
            · have hg : l.eraseDups[i - base.length]'(by omega) = a := by
                have : i - base.length = l.eraseDups.idxOf a := by omega
                simp only [this]
                exact List.getElem_idxOf hi
              rw [if_pos he, hg, tagElem_set _ _ (List.count_pos_iff.2 ha)]
              simp
            · rw [if_neg he]
              have hg : l.eraseDups[i - base.length]'(by omega) ≠ a := by
                intro hg
                apply he
                have := (nodup_eraseDups l).idxOf_getElem (i - base.length) (by omega)
                rw [hg] at this
                omega
              rw [List.count_append, List.count_singleton]
              have : ¬ (a == l.eraseDups[i - base.length]'(by omega)) = true := by simpa using fun h => hg h.symm
              rw [if_neg this, Nat.add_zero]
      · intro t
        rw [ih2 t]
        by_cases ht : t ∈ l
        · simp [ht]
        · have : t ≠ a := fun h => ht (h ▸ ha)
          simp [ht, this]
    · simp only [ha, if_false, eraseDups_snoc]
      constructor
      · rw [ih1, List.map_append, List.append_assoc]
        congr 2
        · apply List.map_congr_left
          intro t ht
          have hne : ¬ (a == t) = true := by
            have := List.mem_eraseDups.1 ht
            simpa using fun h : a = t => ha (h ▸ this)
          rw [List.count_append, List.count_singleton, if_neg hne, Nat.add_zero]
        · have h0 : (l ++ [a]).count a = 1 := by
            rw [List.count_append, List.count_singleton_self, List.count_eq_zero_of_not_mem ha]
          simp only [List.map_cons, List.map_nil, h0]
          rfl
      · intro t
        rw [AD.get?_set, ih2 t, ih1]
        by_cases hta : t = a
        · subst hta
          have hne : t ∉ l.eraseDups := fun h => ha (List.mem_eraseDups.1 h)
          simp [List.idxOf_append, hne]
        · by_cases ht : t ∈ l
          · have := List.mem_eraseDups.2 ht
            simp [hta, ht, List.idxOf_append, this]
          · simp [hta, ht]

end Verif.HitaextFile
