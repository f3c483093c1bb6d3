import Verif.Spec.IElemTree
import Verif.Lemmas.Base

/-! Lemmas about indexed element trees. -/
set_option linter.unusedSectionVars false
namespace Verif.IElemTree
open Verif Verif.Etree Verif.Spec

mutual
/-- Spans of the visible elements of a tree that begins at a position. -/
def spans (o : Opts) : Tree → Nat → List (Nat × Nat × Nat)
  | .node a tag id text tail cs, i =>
    if tag ∈ o.ignoreTags then []
    else spansOf o cs (i + (strip o.ws text).length) ++
      [(a, i, i + (content o (.node a tag id text tail cs)).length)]
/-- The same for a list of trees. -/
def spansOf (o : Opts) : List Tree → Nat → List (Nat × Nat × Nat)
  | [], _ => []
  | c :: cs, i => spans o c i ++ spansOf o cs (i + (contents o [c]).length)
end

mutual
/-- Hidden elements with a child. -/
def flags (o : Opts) : Bool → Tree → List Nat
  | ign, .node a tag _ _ _ cs =>
    if ign ∨ tag ∈ o.ignoreTags then cs.map (fun _ => a) ++ flagsOf o true cs else flagsOf o false cs
/-- The same for a list of trees. -/
def flagsOf (o : Opts) : Bool → List Tree → List Nat
  | _, [] => []
  | ign, c :: cs => flags o ign c ++ flagsOf o ign cs
end

theorem separator_break (o : Opts) (tag : String) : separator o tag = breakAfter o tag := rfl

theorem contents_cons (o : Opts) (c : Tree) (cs : List Tree) :
    contents o (c :: cs) = contents o [c] ++ contents o cs := by
  cases c
  simp [contents]

/-- What the tables say. -/
structure SameTabs (s s' : St) : Prop where
  count : s.count = s'.count
  ids : s.ids = s'.ids
  n : s.n = s'.n
  aligns : s.aligns = s'.aligns

theorem SameTabs.refl (s : St) : SameTabs s s := ⟨rfl, rfl, rfl, rfl⟩
theorem SameTabs.trans {a b c : St} (h : SameTabs a b) (h' : SameTabs b c) : SameTabs a c :=
  ⟨h.1.trans h'.1, h.2.trans h'.2, h.3.trans h'.3, h.4.trans h'.4⟩

/-- Register an element. -/
def reg (s : St) (e : Tree) : St := register s e.addr e.tag e.id

theorem SameTabs.reg {s s' : St} (h : SameTabs s s') (e : Tree) : SameTabs (reg s e) (IElemTree.reg s' e) := by
  unfold IElemTree.reg register
  exact ⟨by simp [h.count], by simp [h.ids], by simp [h.n, h.count], by simp [h.aligns]⟩

theorem SameTabs.regs {s s' : St} (h : SameTabs s s') (l : List Tree) :
    SameTabs (l.foldl IElemTree.reg s) (l.foldl IElemTree.reg s') := by
  induction l generalizing s s' with
  | nil => exact h
  | cons e l ih => exact ih (h.reg e)

/-- Assign the start of each span. -/
def putStart (f : Nat → Option Nat) (x : Nat × Nat × Nat) : Nat → Option Nat := put f x.1 (some x.2.1)
/-- Assign the end of each span. -/
def putStop (f : Nat → Option Nat) (x : Nat × Nat × Nat) : Nat → Option Nat := put f x.1 (some x.2.2)
/-- Flag. -/
def flag (f : Nat → Bool) (a : Nat) : Nat → Bool := put f a true

/-- What indexing does. -/
structure Does (o : Opts) (s : St) (s' : St) (es : List Tree) (sp : List (Nat × Nat × Nat)) (fl : Nat → Prop) : Prop where
  tabs : SameTabs s' (es.foldl reg s)
  start : s'.start = sp.foldl putStart s.start
  stop : s'.stop = sp.foldl putStop s.stop
  ignored : ∀ a, s'.ignored a = true ↔ s.ignored a = true ∨ fl a

theorem Does.comp {o : Opts} {s s1 s2 : St} {e1 e2 : List Tree} {p1 p2 : List (Nat × Nat × Nat)} {f1 f2 : Nat → Prop}
    (h1 : Does o s s1 e1 p1 f1) (h2 : Does o s1 s2 e2 p2 f2) :
    Does o s s2 (e1 ++ e2) (p1 ++ p2) (fun a => f1 a ∨ f2 a) := by
  refine ⟨?_, ?_, ?_, ?_⟩
  · rw [List.foldl_append]; exact h2.tabs.trans (h1.tabs.regs e2)
  · rw [List.foldl_append, h2.start, h1.start]
  · rw [List.foldl_append, h2.stop, h1.stop]
  · intro a; rw [h2.ignored, h1.ignored, or_assoc]

mutual
theorem indexElem_does (o : Opts) : ∀ (t : Tree) (i : Nat) (ign : Bool) (s : St),
    Does o s (indexElem o t i ign s).1 (elems t) (if ign then [] else spans o t i) (· ∈ flags o ign t) ∧
    (indexElem o t i ign s).2 = if ign then strip o.ws t.tail else contents o [t]
  | .node a tag id text tail cs, i, ign, s => by
    have hreg : Does o s (register s a tag id) [.node a tag id text tail cs] [] (fun _ => False) :=
      ⟨SameTabs.refl _, rfl, rfl, fun _ => by simp [register]⟩
    unfold indexElem
    dsimp only
    by_cases hi : (ign : Prop) ∨ tag ∈ o.ignoreTags
    · rw [if_pos hi]
      refine ⟨?_, ?_⟩
      · have h2 := indexIgnored_does o a cs (register s a tag id)
        have := hreg.comp h2
        refine ⟨?_, ?_, ?_, ?_⟩
        · simpa [elems] using this.tabs
        · rw [this.start]
          cases ign with
          | true => rfl
          | false => rcases hi with hi | hi
                     · simp at hi
                     · simp [spans, hi]
        · rw [this.stop]
          cases ign with
          | true => rfl
          | false => rcases hi with hi | hi
                     · simp at hi
                     · simp [spans, hi]
        · intro x
          rw [this.ignored, flags, if_pos hi]
          simp
      · cases ign with
        | true => simp [Tree.tail]
        | false => rcases hi with hi | hi
                   · simp at hi
                   · simp [contents, hi]
    · rw [if_neg hi]
      have hig : ign = false := by
        cases ign with
        | true => exact absurd (Or.inl rfl) hi
        | false => rfl
      subst hig
      have ht : tag ∉ o.ignoreTags := fun h => hi (Or.inr h)
      obtain ⟨h2, h3⟩ := indexChildren_does o cs i (register s a tag id, strip o.ws text)
      have := hreg.comp h2
      dsimp only at h3
      refine ⟨⟨?_, ?_, ?_, ?_⟩, ?_⟩
      · have h4 := this.tabs
        exact ⟨by simpa [elems] using h4.count, by simpa [elems] using h4.ids, by simpa [elems] using h4.n,
          by simpa [elems] using h4.aligns⟩
      · dsimp only
        rw [this.start]
        simp [spans, ht, putStart, List.foldl_append]
      · dsimp only
        rw [this.stop]
        simp [spans, ht, putStop, List.foldl_append, h3, content]
      · intro x
        dsimp only
        rw [this.ignored, flags, if_neg hi]
        simp
      · rw [h3]
        simp [contents, ht, content, separator_break]
theorem indexIgnored_does (o : Opts) (a : Nat) : ∀ (cs : List Tree) (s : St),
    Does o s (indexIgnored o a cs s) (elemsOf cs) [] (· ∈ cs.map (fun _ => a) ++ flagsOf o true cs)
  | [], s => by
    refine ⟨SameTabs.refl _, rfl, rfl, ?_⟩
    simp [indexIgnored, flagsOf]
  | c :: cs, s => by
    unfold indexIgnored
    obtain ⟨h1, _⟩ := indexElem_does o c 0 true { s with ignored := put s.ignored a true }
    have h2 := indexIgnored_does o a cs (indexElem o c 0 true { s with ignored := put s.ignored a true }).1
    have h0 : Does o s { s with ignored := put s.ignored a true } [] [] (fun x => x = a) := by
      refine ⟨⟨rfl, rfl, rfl, rfl⟩, rfl, rfl, ?_⟩
      intro x
      dsimp only [put]
      split
      · rename_i h; simp [h]
      · rename_i h; simp [h]
    have := (h0.comp h1).comp h2
    refine ⟨by simpa [elemsOf] using this.tabs, by rw [this.start]; simp, by rw [this.stop]; simp, ?_⟩
    intro x
    rw [this.ignored]
    simp only [flagsOf, List.map_cons, List.mem_append, List.mem_cons]
    tauto
theorem indexChildren_does (o : Opts) : ∀ (cs : List Tree) (i : Nat) (r : St × Text),
    Does o r.1 (indexChildren o cs i r).1 (elemsOf cs) (spansOf o cs (i + r.2.length)) (· ∈ flagsOf o false cs) ∧
    (indexChildren o cs i r).2 = r.2 ++ contents o cs
  | [], i, r => by
    refine ⟨⟨SameTabs.refl _, rfl, rfl, ?_⟩, ?_⟩
    · simp [indexChildren, flagsOf]
    · simp [indexChildren, contents]
  | c :: cs, i, r => by
    unfold indexChildren
    dsimp only
    obtain ⟨h1, h2⟩ := indexElem_does o c (i + r.2.length) false r.1
    obtain ⟨h3, h4⟩ := indexChildren_does o cs i
      ((indexElem o c (i + r.2.length) false r.1).1, r.2 ++ (indexElem o c (i + r.2.length) false r.1).2)
    simp only [Bool.false_eq_true, if_false] at h1 h2
    have := h1.comp h3
    refine ⟨⟨by simpa [elemsOf] using this.tabs, ?_, ?_, ?_⟩, ?_⟩
    · rw [this.start, h2, spansOf]; simp [Nat.add_assoc]
    · rw [this.stop, h2, spansOf]; simp [Nat.add_assoc]
    · intro x
      rw [this.ignored, flagsOf]
      simp
    · rw [h4, h2, contents_cons o c cs]; simp
end

theorem foldl_putStart (l : List (Nat × Nat × Nat)) (f : Nat → Option Nat) (a : Nat) :
    (a ∉ l.map Prod.fst → l.foldl putStart f a = f a) ∧
    (∀ i j, (a, i, j) ∈ l → (l.map Prod.fst).Nodup → l.foldl putStart f a = some i) := by
  induction l generalizing f with
  | nil => simp
  | cons x l ih =>
    constructor
    · intro h
      simp only [List.map_cons, List.mem_cons, not_or] at h
      rw [List.foldl_cons, (ih _).1 h.2]
      simp [putStart, put, h.1]
    · intro i j hm hn
      simp only [List.map_cons, List.nodup_cons] at hn
      rw [List.foldl_cons]
      rcases List.mem_cons.1 hm with rfl | hm
      · rw [(ih _).1 hn.1]; simp [putStart, put]
      · exact (ih _).2 i j hm hn.2

theorem foldl_putStop (l : List (Nat × Nat × Nat)) (f : Nat → Option Nat) (a : Nat) :
    (a ∉ l.map Prod.fst → l.foldl putStop f a = f a) ∧
    (∀ i j, (a, i, j) ∈ l → (l.map Prod.fst).Nodup → l.foldl putStop f a = some j) := by
  induction l generalizing f with
  | nil => simp
  | cons x l ih =>
    constructor
    · intro h
      simp only [List.map_cons, List.mem_cons, not_or] at h
      rw [List.foldl_cons, (ih _).1 h.2]
      simp [putStop, put, h.1]
    · intro i j hm hn
      simp only [List.map_cons, List.nodup_cons] at hn
      rw [List.foldl_cons]
      rcases List.mem_cons.1 hm with rfl | hm
      · rw [(ih _).1 hn.1]; simp [putStop, put]
      · exact (ih _).2 i j hm hn.2

mutual
theorem spans_perm (o : Opts) : ∀ (t : Tree) (i : Nat),
    ((spans o t i).map Prod.fst).Perm ((visible o t).map Tree.addr)
  | .node a tag id text tail cs, i => by
    unfold spans visible
    split
    · simp
    · rw [List.map_append, List.map_cons]
      refine List.perm_append_comm.trans ?_
      exact (spansOf_perm o cs _).cons a
theorem spansOf_perm (o : Opts) : ∀ (cs : List Tree) (i : Nat),
    ((spansOf o cs i).map Prod.fst).Perm ((visibleOf o cs).map Tree.addr)
  | [], i => by simp [spansOf, visibleOf]
  | c :: cs, i => by
    unfold spansOf visibleOf
    rw [List.map_append, List.map_append]
    exact (spans_perm o c i).append (spansOf_perm o cs _)
end

mutual
theorem visible_sublist (o : Opts) : ∀ (t : Tree), (visible o t).Sublist (elems t)
  | .node a tag id text tail cs => by
    unfold visible elems
    split
    · exact List.nil_sublist _
    · exact (visibleOf_sublist o cs).cons₂ _
theorem visibleOf_sublist (o : Opts) : ∀ (cs : List Tree), (visibleOf o cs).Sublist (elemsOf cs)
  | [] => by simp [visibleOf, elemsOf]
  | c :: cs => by
    unfold visibleOf elemsOf
    exact (visible_sublist o c).append (visibleOf_sublist o cs)
end

mutual
/-- A visible element has a span, in which its text stands. -/
theorem spans_visible (o : Opts) : ∀ (t : Tree) (i : Nat) (e : Tree), e ∈ visible o t →
    ∃ k, (∀ x ∈ spans o e k, x ∈ spans o t i) ∧ e.tag ∉ o.ignoreTags ∧
      ∃ pre post, contents o [t] = pre ++ content o e ++ post ∧ k = i + pre.length
  | .node a tag id text tail cs, i, e, he => by
    unfold visible at he
    split at he
    · simp at he
    · rename_i ht
      rcases List.mem_cons.1 he with rfl | he
      · exact ⟨i, fun x hx => hx, ht, [], breakAfter o tag ++ strip o.ws tail, by simp [contents, ht], by simp⟩
      · obtain ⟨k, h1, h2, pre, post, h3, h4⟩ := spansOf_visible o cs (i + (strip o.ws text).length) e he
        refine ⟨k, ?_, h2, strip o.ws text ++ pre, post ++ breakAfter o tag ++ strip o.ws tail, ?_, ?_⟩
        · intro x hx
          unfold spans
          rw [if_neg ht]
          exact List.mem_append_left _ (h1 x hx)
        · simp [contents, ht, content, h3]
        · rw [h4]; simp; omega
theorem spansOf_visible (o : Opts) : ∀ (cs : List Tree) (i : Nat) (e : Tree), e ∈ visibleOf o cs →
    ∃ k, (∀ x ∈ spans o e k, x ∈ spansOf o cs i) ∧ e.tag ∉ o.ignoreTags ∧
      ∃ pre post, contents o cs = pre ++ content o e ++ post ∧ k = i + pre.length
  | [], i, e, he => by simp [visibleOf] at he
  | c :: cs, i, e, he => by
    unfold visibleOf at he
    rw [contents_cons]
    unfold spansOf
    rcases List.mem_append.1 he with he | he
    · obtain ⟨k, h1, h2, pre, post, h3, h4⟩ := spans_visible o c i e he
      exact ⟨k, fun x hx => List.mem_append_left _ (h1 x hx), h2, pre, post ++ contents o cs, by simp [h3], h4⟩
    · obtain ⟨k, h1, h2, pre, post, h3, h4⟩ := spansOf_visible o cs (i + (contents o [c]).length) e he
      refine ⟨k, fun x hx => List.mem_append_right _ (h1 x hx), h2, contents o [c] ++ pre, post, by simp [h3], ?_⟩
      rw [h4]; simp; omega
end

theorem self_span (o : Opts) (e : Tree) (k : Nat) (h : e.tag ∉ o.ignoreTags) :
    (e.addr, k, k + (content o e).length) ∈ spans o e k := by
  cases e with
  | node a tag id text tail cs =>
    unfold spans
    rw [if_neg (by simpa [Tree.tag] using h)]
    simp [Tree.addr]

mutual
theorem iter_eq : ∀ (t : Tree), iter t = elems t
  | .node a tag id text tail cs => by rw [iter, elems, iterList_eq]
theorem iterList_eq : ∀ (cs : List Tree), iterList cs = elemsOf cs
  | [] => rfl
  | c :: cs => by rw [iterList, elemsOf, iter_eq, iterList_eq]
end

mutual
/-- The elements that are ignored. -/
def hidden (o : Opts) : Bool → Tree → List Tree
  | ign, .node a tag id text tail cs =>
    if ign ∨ tag ∈ o.ignoreTags then .node a tag id text tail cs :: hiddenOf o true cs else hiddenOf o false cs
/-- The same for a list of trees. -/
def hiddenOf (o : Opts) : Bool → List Tree → List Tree
  | _, [] => []
  | ign, c :: cs => hidden o ign c ++ hiddenOf o ign cs
end

mutual
theorem hidden_true (o : Opts) : ∀ (t : Tree), hidden o true t = elems t
  | .node a tag id text tail cs => by
    unfold hidden elems
    simp [hiddenOf_true o cs]
theorem hiddenOf_true (o : Opts) : ∀ (cs : List Tree), hiddenOf o true cs = elemsOf cs
  | [] => by simp [hiddenOf, elemsOf]
  | c :: cs => by rw [hiddenOf, elemsOf, hidden_true o c, hiddenOf_true o cs]
end

mutual
theorem elems_perm (o : Opts) : ∀ (t : Tree), (elems t).Perm (visible o t ++ hidden o false t)
  | .node a tag id text tail cs => by
    unfold visible hidden elems
    by_cases h : tag ∈ o.ignoreTags
    · simp only [h, or_true, if_true, hiddenOf_true, List.nil_append]; exact List.Perm.refl _
    · simp only [h, or_false, Bool.false_eq_true, if_false, List.cons_append]
      exact (elemsOf_perm o cs).cons _
theorem elemsOf_perm (o : Opts) : ∀ (cs : List Tree), (elemsOf cs).Perm (visibleOf o cs ++ hiddenOf o false cs)
  | [] => by simp [elemsOf, visibleOf, hiddenOf]
  | c :: cs => by
    unfold elemsOf visibleOf hiddenOf
    refine ((elems_perm o c).append (elemsOf_perm o cs)).trans ?_
    simp only [List.append_assoc]
    refine List.Perm.append_left _ ?_
    rw [← List.append_assoc, ← List.append_assoc]
    exact List.perm_append_comm.append_right _
end

mutual
theorem mem_flags (o : Opts) : ∀ (t : Tree) (ign : Bool) (a : Nat),
    a ∈ flags o ign t ↔ ∃ e ∈ hidden o ign t, e.addr = a ∧ e.children ≠ []
  | .node b tag id text tail cs, ign, a => by
    unfold flags hidden
    split
    · simp only [List.mem_append, mem_flagsOf o cs true a, List.mem_cons, List.mem_map]
      constructor
      · rintro (⟨c, hc, rfl⟩ | ⟨e, he, h1⟩)
        · exact ⟨_, Or.inl rfl, rfl, by rintro h; simp only [Tree.children] at h; simp [h] at hc⟩
        · exact ⟨e, Or.inr he, h1⟩
      · rintro ⟨e, rfl | he, h1, h2⟩
        · obtain ⟨c, hc⟩ := List.exists_mem_of_ne_nil _ h2
          exact Or.inl ⟨c, hc, h1⟩
        · exact Or.inr ⟨e, he, h1, h2⟩
    · exact mem_flagsOf o cs false a
theorem mem_flagsOf (o : Opts) : ∀ (cs : List Tree) (ign : Bool) (a : Nat),
    a ∈ flagsOf o ign cs ↔ ∃ e ∈ hiddenOf o ign cs, e.addr = a ∧ e.children ≠ []
  | [], ign, a => by simp [flagsOf, hiddenOf]
  | c :: cs, ign, a => by
    unfold flagsOf hiddenOf
    simp only [List.mem_append, mem_flags o c ign a, mem_flagsOf o cs ign a]
    constructor
    · rintro (⟨e, he, h⟩ | ⟨e, he, h⟩)
      · exact ⟨e, Or.inl he, h⟩
      · exact ⟨e, Or.inr he, h⟩
    · rintro ⟨e, he | he, h⟩
      · exact Or.inl ⟨e, he, h⟩
      · exact Or.inr ⟨e, he, h⟩
end

mutual
theorem elems_children : ∀ (t e c : Tree), e ∈ elems t → c ∈ e.children → c ∈ elems t
  | .node a tag id text tail cs, e, c, he, hc => by
    unfold elems at he ⊢
    rcases List.mem_cons.1 he with rfl | he
    · exact List.mem_cons_of_mem _ (elemsOf_mem cs c hc)
    · exact List.mem_cons_of_mem _ (elemsOf_children cs e c he hc)
theorem elemsOf_children : ∀ (cs : List Tree) (e c : Tree), e ∈ elemsOf cs → c ∈ e.children → c ∈ elemsOf cs
  | [], e, c, he, hc => by simp [elemsOf] at he
  | d :: ds, e, c, he, hc => by
    unfold elemsOf at he ⊢
    rcases List.mem_append.1 he with he | he
    · exact List.mem_append_left _ (elems_children d e c he hc)
    · exact List.mem_append_right _ (elemsOf_children ds e c he hc)
theorem elemsOf_mem : ∀ (cs : List Tree) (c : Tree), c ∈ cs → c ∈ elemsOf cs
  | [], c, h => by simp at h
  | d :: ds, c, h => by
    unfold elemsOf
    rcases List.mem_cons.1 h with rfl | h
    · cases c; simp [elems]
    · exact List.mem_append_right _ (elemsOf_mem ds c h)
end

/-- Elements of a tag, in document order. -/
def tagged (es : List Tree) (tag : String) : List Nat := (es.filter fun e => e.tag = tag).map Tree.addr

theorem regs_count (es : List Tree) (s : St) (tag : String) (l : List Nat) (hl : (s.count.get? tag).getD [] = l) :
    ((es.foldl reg s).count.get? tag).getD [] = l ++ tagged es tag := by
  induction es generalizing s l with
  | nil => simpa [tagged] using hl
  | cons e es ih =>
    rw [List.foldl_cons]
    by_cases h : e.tag = tag
    · rw [ih (reg s e) (l ++ [e.addr]) ?_]
      · simp [tagged, h]
      · unfold reg register regCount
        dsimp only
        rw [h, ← hl]
        cases s.count.get? tag <;> simp
    · rw [ih (reg s e) l ?_]
      · simp [tagged, h]
      · unfold reg register regCount
        dsimp only
        have h' : ¬ tag = e.tag := fun hc => h hc.symm
        cases s.count.get? e.tag <;> simp [AD.get?_set, h', hl]

theorem regs_has (es : List Tree) (s : St) (tag : String) :
    ((es.foldl reg s).count.get? tag).isSome = ((s.count.get? tag).isSome || es.any fun e => e.tag = tag) := by
  induction es generalizing s with
  | nil => simp
  | cons e es ih =>
    rw [List.foldl_cons, ih]
    have : ((reg s e).count.get? tag).isSome = ((s.count.get? tag).isSome || decide (e.tag = tag)) := by
      unfold reg register regCount
      dsimp only
      by_cases h : e.tag = tag
      · subst h; cases hc : s.count.get? e.tag <;> simp
      · have h' : ¬ tag = e.tag := fun hc => h hc.symm
        cases hc : s.count.get? e.tag <;> simp [AD.get?_set, h', h]
    rw [this, List.any_cons, Bool.or_assoc]

theorem regs_n_other (es : List Tree) (s : St) (a : Nat) (h : a ∉ es.map Tree.addr) :
    (es.foldl reg s).n a = s.n a ∧ (es.foldl reg s).aligns a = s.aligns a := by
  induction es generalizing s with
  | nil => exact ⟨rfl, rfl⟩
  | cons e es ih =>
    simp only [List.map_cons, List.mem_cons, not_or] at h
    rw [List.foldl_cons, (ih _ h.2).1, (ih _ h.2).2]
    simp [reg, register, put, h.1]

theorem regs_n (pre : List Tree) (e : Tree) (post : List Tree) (s : St) (hs : s.count = [])
    (hn : ((pre ++ e :: post).map Tree.addr).Nodup) :
    ((pre ++ e :: post).foldl reg s).n e.addr = some ((tagged pre e.tag).length + 1) ∧
    ((pre ++ e :: post).foldl reg s).aligns e.addr = [] := by
  rw [List.foldl_append, List.foldl_cons]
  have hp : e.addr ∉ post.map Tree.addr := by
    rw [List.map_append, List.nodup_append] at hn
    have := hn.2.1
    simp only [List.map_cons, List.nodup_cons] at this
    exact this.1
  rw [(regs_n_other post _ _ hp).1, (regs_n_other post _ _ hp).2]
  have hc := regs_count pre s e.tag [] (by simp [hs])
  refine ⟨?_, by simp [reg, register, put]⟩
  rw [reg]
  unfold register regCount
  simp only [put, if_true]
  revert hc
  generalize (pre.foldl reg s).count = d
  intro hc
  cases h : d.get? e.tag with
  | none => rw [h] at hc; simp at hc; simp [← hc]
  | some l => rw [h] at hc; simp at hc; simp [← hc]

/-- The last element with a tag and id. -/
def lastWith (es : List Tree) (tag : String) (id : Option String) : Option Nat :=
  ((es.filter fun e => e.tag = tag ∧ e.id = id).getLast?).map Tree.addr

/-- `tagIdTable[tag][id]`. -/
def lookId (d : AD String (AD (Option String) Nat)) (tag : String) (id : Option String) : Option Nat :=
  (d.get? tag).bind fun m => m.get? id

theorem regId_look (d : AD String (AD (Option String) Nat)) (tag tag' : String) (id id' : Option String) (a : Nat) :
    lookId (regId d tag id a) tag' id' = if tag' = tag ∧ id' = id then some a else lookId d tag' id' := by
  unfold lookId regId
  by_cases h : tag' = tag
  · subst h
    cases hd : d.get? tag' with
    | none =>
      simp only [AD.get?_set_self, Option.bind_some, AD.get?_cons, AD.get?_nil, true_and]
      by_cases hi : id' = id
      · simp [hi]
      · have : ¬ id = id' := fun hc => hi hc.symm
        simp [hi, this]
    | some m =>
      simp only [AD.get?_set_self, Option.bind_some, AD.get?_set, true_and]
  · cases hd : d.get? tag with
    | none => simp [AD.get?_set, h]
    | some m => simp [AD.get?_set, h]

theorem regs_ids (es : List Tree) (s : St) (tag : String) (id : Option String) :
    lookId (es.foldl reg s).ids tag id = (lastWith es tag id).or (lookId s.ids tag id) := by
  induction es generalizing s with
  | nil => simp [lastWith]
  | cons e es ih =>
    rw [List.foldl_cons, ih]
    have : (reg s e).ids = regId s.ids e.tag e.id e.addr := rfl
    rw [this, regId_look]
    unfold lastWith
    by_cases h : e.tag = tag ∧ e.id = id
    · rw [List.filter_cons_of_pos (by simpa using h), if_pos ⟨h.1.symm, h.2.symm⟩, List.getLast?_cons]
      cases (es.filter fun e => e.tag = tag ∧ e.id = id).getLast? <;> simp
    · rw [List.filter_cons_of_neg (by simpa using h), if_neg (fun hc => h ⟨hc.1.symm, hc.2.symm⟩)]

end Verif.IElemTree
