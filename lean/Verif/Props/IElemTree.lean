import Verif.Lemmas.IElemTree

/-! Property C52 (lib/daeso/ptc/ielemtree.py). -/
namespace Verif.Props.IElemTree
open Verif Verif.Etree Verif.Spec Verif.IElemTree

/-- C52.  The text of a document is the text of its elements, in document order, without the ignored ones. -/
theorem document_text (o : Opts) (t : Tree) (s : St) : (update o t s).text = contents o [t] :=
  (indexElem_does o t 0 false _).2

private theorem does (o : Opts) (t : Tree) (s : St) :
    Does o { s with count := [], ids := [] } (update o t s).st (elems t) (spans o t 0) (· ∈ flags o false t) :=
  (indexElem_does o t 0 false _).1

private theorem spans_nodup {o : Opts} {t : Tree} (hd : Distinct t) (i : Nat) : ((spans o t i).map Prod.fst).Nodup :=
  (spans_perm o t i).nodup_iff.2 (List.Nodup.sublist ((visible_sublist o t).map _) hd)

private theorem span_of {o : Opts} {t : Tree} (s : St) (hd : Distinct t) {a i j : Nat} (h : (a, i, j) ∈ spans o t 0) :
    (update o t s).st.start a = some i ∧ (update o t s).st.stop a = some j := by
  have hs := does o t s
  rw [hs.start, hs.stop]
  exact ⟨(foldl_putStart _ _ a).2 i j h (spans_nodup hd 0), (foldl_putStop _ _ a).2 i j h (spans_nodup hd 0)⟩

/-- C52.  After indexing, whatever was indexed before, the text of every element that is not ignored is the text of
its subtree. -/
theorem element_text (o : Opts) (t : Tree) (s : St) (hd : Distinct t) (e : Tree) (he : e ∈ visible o t) :
    getElemText (update o t s) e.addr = content o e := by
  obtain ⟨k, h1, h2, pre, post, h3, h4⟩ := spans_visible o t 0 e he
  obtain ⟨e1, e2⟩ := span_of s hd (h1 _ (self_span o e k h2))
  unfold getElemText
  rw [document_text, e1, e2, h3]
  have hk : k = pre.length := by omega
  subst hk
  simp [List.take_append, List.drop_append]

/-- C52.  In a document indexed for the first time the text of an ignored element is empty. -/
theorem ignored_text (o : Opts) (t : Tree) (hd : Distinct t) (e : Tree) (he : e ∈ elems t) (hv : e ∉ visible o t) :
    getElemText (update o t fresh) e.addr = [] := by
  have hs := does o t fresh
  have hn : e.addr ∉ (spans o t 0).map Prod.fst := by
    rw [(spans_perm o t 0).mem_iff]
    intro hc
    obtain ⟨e', h1, h2⟩ := List.mem_map.1 hc
    have h3 := (visible_sublist o t).subset h1
    have : e' = e := List.inj_on_of_nodup_map hd h3 he h2
    exact hv (this ▸ h1)
  unfold getElemText
  rw [hs.start, (foldl_putStart _ _ _).1 hn, hs.stop, (foldl_putStop _ _ _).1 hn]
  simp [fresh]

/-- This is false when the document was indexed before with other settings: an ignored element keeps its old span,
and its "text" is a piece of the text of other elements. -/
theorem ignored_text_stale : ∃ (o o' : Opts) (t e : Tree), Distinct t ∧ e ∈ elems t ∧ e ∉ visible o' t ∧
    getElemText (update o' t (update o t fresh).st) e.addr = "other".toList := by
  refine ⟨{ ws := fun c => c = ' ' }, { ws := fun c => c = ' ', ignoreTags := ["s"] },
    .node 0 "d" none [] [] [.node 1 "s" none "first".toList [] [], .node 2 "p" none "other".toList [] []],
    .node 1 "s" none "first".toList [] [], ?_, ?_, ?_, ?_⟩
  · simp [Distinct, elems, elemsOf, Tree.addr]
  · simp [elems, elemsOf]
  · simp [visible, visibleOf]
  · decide +kernel

/-- C52.  The span of a child lies within the span of its parent. -/
theorem spans_nested (o : Opts) (t : Tree) (s : St) (hd : Distinct t) (e c : Tree) (he : e ∈ visible o t)
    (hc : c ∈ e.children) (hct : c.tag ∉ o.ignoreTags) :
    ∃ i j i' j', (update o t s).st.start e.addr = some i ∧ (update o t s).st.stop e.addr = some j ∧
      (update o t s).st.start c.addr = some i' ∧ (update o t s).st.stop c.addr = some j' ∧
      i ≤ i' ∧ i' ≤ j' ∧ j' ≤ j ∧ j ≤ (update o t s).text.length := by
  obtain ⟨k, h1, h2, pre, post, h3, h4⟩ := spans_visible o t 0 e he
  obtain ⟨e1, e2⟩ := span_of s hd (h1 _ (self_span o e k h2))
  have hcv : c ∈ visibleOf o e.children := by
    obtain ⟨l1, l2, hl⟩ := List.append_of_mem hc
    rw [hl]
    clear hl hc
    induction l1 with
    | nil =>
      rw [List.nil_append, visibleOf]
      refine List.mem_append_left _ ?_
      cases c
      unfold visible
      rw [if_neg (by simpa [Tree.tag] using hct)]
      simp
    | cons d l1 ih => rw [List.cons_append, visibleOf]; exact List.mem_append_right _ ih
  cases e with
  | node a tag id text tail cs =>
    obtain ⟨k', g1, g2, pre', post', g3, g4⟩ := spansOf_visible o cs (k + (strip o.ws text).length) c hcv
    have hin : ∀ x ∈ spansOf o cs (k + (strip o.ws text).length), x ∈ spans o t 0 := by
      intro x hx
      refine h1 x ?_
      unfold spans
      rw [if_neg (by simpa [Tree.tag] using h2)]
      exact List.mem_append_left _ hx
    obtain ⟨c1, c2⟩ := span_of s hd (hin _ (g1 _ (self_span o c k' g2)))
    refine ⟨_, _, _, _, e1, e2, c1, c2, by omega, by omega, ?_, ?_⟩
    · simp only [content, g3, List.length_append]; omega
    · rw [document_text, h3]; simp only [List.length_append]; omega

/-- C52.  The spans of the children of an element are disjoint and in order. -/
theorem spans_ordered (o : Opts) (t : Tree) (s : St) (hd : Distinct t) (e c1 c2 : Tree) (l1 l2 l3 : List Tree)
    (he : e ∈ visible o t) (hc : e.children = l1 ++ c1 :: l2 ++ c2 :: l3) (h1 : c1.tag ∉ o.ignoreTags)
    (h2 : c2.tag ∉ o.ignoreTags) :
    ∃ j i', (update o t s).st.stop c1.addr = some j ∧ (update o t s).st.start c2.addr = some i' ∧ j ≤ i' := by
  obtain ⟨k, g1, g2, -⟩ := spans_visible o t 0 e he
  cases e with
  | node a tag id text tail cs =>
    simp only [Tree.children] at hc
    have hin : ∀ x ∈ spansOf o cs (k + (strip o.ws text).length), x ∈ spans o t 0 := by
      intro x hx
      refine g1 x ?_
      unfold spans
      rw [if_neg (by simpa [Tree.tag] using g2)]
      exact List.mem_append_left _ hx
    have happ : ∀ (l l' : List Tree) (i : Nat), spansOf o (l ++ l') i =
        spansOf o l i ++ spansOf o l' (i + (contents o l).length) := by
      intro l
      induction l with
      | nil => intro l' i; simp [spansOf, contents]
      | cons d l ih =>
        intro l' i
        rw [List.cons_append, spansOf, spansOf, ih, List.append_assoc, contents_cons o d l, List.length_append,
          Nat.add_assoc]
    rw [hc, List.append_assoc, happ, List.cons_append, spansOf, happ, spansOf] at hin
    obtain ⟨-, e2⟩ := span_of s hd (hin _ (List.mem_append_right _ (List.mem_append_left _ (self_span o c1 _ h1))))
    obtain ⟨e3, -⟩ := span_of s hd (hin _ (List.mem_append_right _ (List.mem_append_right _ (List.mem_append_right _
      (List.mem_append_left _ (self_span o c2 _ h2))))))
    refine ⟨_, _, e2, e3, ?_⟩
    have : (content o c1).length ≤ (contents o [c1]).length := by
      cases c1
      simp only [Tree.tag] at h1
      simp only [contents, h1, if_false, List.length_append]
      omega
    omega

/-- C52.  The table of a tag lists its elements, ignored ones included, in document order; the number of an element
counts the elements of its tag up to itself, so that the table holds it at that place. -/
theorem numbering (o : Opts) (t : Tree) (s : St) (hd : Distinct t) :
    (∀ tag, (update o t s).st.count.get? tag =
      if (elems t).any fun e => e.tag = tag then some (((elems t).filter fun e => e.tag = tag).map Tree.addr)
      else none) ∧
    (∀ pre e post, elems t = pre ++ e :: post →
      (update o t s).st.n e.addr = some ((pre.filter fun x => x.tag = e.tag).length + 1)) ∧
    (∀ e ∈ elems t, ∃ l n, (update o t s).st.count.get? e.tag = some l ∧
      (update o t s).st.n e.addr = some (n + 1) ∧ l[n]? = some e.addr) := by
  have hs := (does o t s).tabs
  have hcount : ∀ tag, (update o t s).st.count.get? tag =
      if (elems t).any fun e => e.tag = tag then some (((elems t).filter fun e => e.tag = tag).map Tree.addr)
      else none := by
    intro tag
    rw [hs.count]
    have h1 := regs_count (elems t) { s with count := [], ids := [] } tag [] (by simp)
    have h2 := regs_has (elems t) { s with count := [], ids := [] } tag
    simp only [AD.get?_nil, Option.isSome_none, Bool.false_or] at h2
    rw [← h2]
    cases h : ((elems t).foldl reg { s with count := [], ids := [] }).count.get? tag with
    | none => simp
    | some l => rw [h] at h1; simpa [tagged] using h1
  have hn : ∀ pre e post, elems t = pre ++ e :: post →
      (update o t s).st.n e.addr = some ((pre.filter fun x => x.tag = e.tag).length + 1) := by
    intro pre e post h
    rw [hs.n, h, (regs_n pre e post _ rfl (by rw [← h]; exact hd)).1]
    simp [tagged]
  refine ⟨hcount, hn, fun e he => ?_⟩
  obtain ⟨pre, post, h⟩ := List.append_of_mem he
  refine ⟨((elems t).filter fun x => x.tag = e.tag).map Tree.addr, _, ?_, hn pre e post h, ?_⟩
  · rw [hcount, if_pos]
    exact List.any_eq_true.2 ⟨e, he, by simp⟩
  · rw [h, List.filter_append, List.filter_cons_of_pos (by simp), List.map_append, List.map_cons,
      List.getElem?_append_right (by simp)]
    simp

/-- C52.  Looking up a tag and an id gives the last element with them. -/
theorem id_lookup (o : Opts) (t : Tree) (s : St) (tag : String) (id : Option String) :
    ((update o t s).st.ids.get? tag).bind (fun m => m.get? id) =
      (((elems t).filter fun e => e.tag = tag ∧ e.id = id).getLast?).map Tree.addr := by
  have hs := (does o t s).tabs
  rw [hs.ids]
  have := regs_ids (elems t) { s with count := [], ids := [] } tag id
  simpa [lookId, lastWith] using this

/-- C52.  Indexing removes all alignments. -/
theorem no_alignments (o : Opts) (t : Tree) (s : St) (hd : Distinct t) (e : Tree) (he : e ∈ elems t) :
    (update o t s).st.aligns e.addr = [] := by
  have hs := (does o t s).tabs
  obtain ⟨pre, post, h⟩ := List.append_of_mem he
  rw [hs.aligns, h]
  exact (regs_n pre e post _ rfl (by rw [← h]; exact hd)).2

/-- C52.  The flag of ignored elements is set only on those with a child: ignored elements without children are not
marked as ignored, although they get no text. -/
theorem ignored_flags (o : Opts) (t : Tree) (hd : Distinct t) (e : Tree) (he : e ∈ elems t) :
    (update o t fresh).st.ignored e.addr = true ↔ e ∉ visible o t ∧ e.children ≠ [] := by
  rw [(does o t fresh).ignored, mem_flags]
  have hp := elems_perm o t
  have hn : ((visible o t ++ hidden o false t).map Tree.addr).Nodup := (hp.map _).nodup_iff.1 hd
  rw [List.map_append, List.nodup_append] at hn
  constructor
  · rintro (h | ⟨e', h1, h2, h3⟩)
    · simp [fresh] at h
    · have h4 : e' ∈ elems t := hp.mem_iff.2 (List.mem_append_right _ h1)
      have : e' = e := List.inj_on_of_nodup_map hd h4 he h2
      subst this
      refine ⟨fun hv => ?_, h3⟩
      exact hn.2.2 _ (List.mem_map_of_mem hv) _ (List.mem_map_of_mem h1) rfl
  · rintro ⟨h1, h2⟩
    rcases List.mem_append.1 (hp.mem_iff.1 he) with h | h
    · exact absurd h h1
    · exact Or.inr ⟨e, h, rfl, h2⟩

/-- A document with two paragraphs, the second ignored. -/
def sample : Tree := .node 0 "d" none " ".toList []
  [.node 1 "p" (some "p1") " a ".toList " ".toList [.node 2 "s" (some "x") "bc ".toList [] []],
   .node 3 "q" none "z".toList " t".toList [.node 4 "s" (some "y") "w".toList [] []],
   .node 5 "s" (some "x") "e".toList [] []]

/-- White space, and settings that ignore q. -/
def sampleOpts : Opts := { ws := fun c => c = ' ', ignoreTags := ["q"], newlineTags := ["s"], blanklineTags := ["p"] }

example : Distinct sample ∧ (visible sampleOpts sample).map Tree.addr = [0, 1, 2, 5] ∧
    (update sampleOpts sample fresh).text = "abc\n\n\nte\n".toList ∧
    getElemText (update sampleOpts sample fresh) 1 = "abc\n".toList ∧
    (update sampleOpts sample fresh).st.count.get? "s" = some [2, 4, 5] ∧
    (update sampleOpts sample fresh).st.ignored 3 = true ∧ (update sampleOpts sample fresh).st.ignored 4 = false := by
  refine ⟨by simp [Distinct, sample, elems, elemsOf, Tree.addr], by decide +kernel, by decide +kernel,
    by decide +kernel, by decide +kernel, by decide +kernel, by decide +kernel⟩

end Verif.Props.IElemTree
