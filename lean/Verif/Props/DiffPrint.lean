import Verif.Lemmas.DiffPrint
import Verif.Props.PgcDiff

/-! Property C77 (the output of lib/daeso/pgc/diff.py). -/
namespace Verif.Props.DiffPrint
open Verif Verif.Etree Verif.Spec Verif.Spec.DiffPrint Verif.DiffPrint Verif.AlignPrint
open Verif.PgcDiff (Title Entry)

variable (num : String → Option Int) (ws : Char → Bool) (repr : List String → Text)

/-- C77.  If the differences are found, and the graph pairs have all that is shown of them, in ASCII as far as the labels of
source nodes and the relations are concerned, the output is the report of each graph pair in turn, and nothing else. -/
theorem report_printed (o : Opts) (relations1 : List String) (n1 n2 : Nat) (ps : List Texts) (out : List (List (Title × List Entry)))
    (h : PgcDiff.pgcDiff num o.wordsOnly o.showIdent o.relations relations1 n1 n2 (ps.map Texts.both) = .ok out)
    (hc : List.Forall₂ (Complete o.showComments) ps out) (hs : List.Forall₂ Simple ps out) :
    ∃ ts, List.Forall₂ (fun x t => PairShows ws o.annot1 o.annot2 o.showComments x.1 x.2 t) (ps.zip out) ts ∧
      pgcDiff num ws repr o relations1 n1 n2 ps = (ts.flatten, none) := by
  unfold PgcDiff.pgcDiff at h
  by_cases hn : n1 ≠ n2
  · rw [if_pos hn] at h; cases h
  rw [if_neg hn] at h
  rcases hf : Py.forIn (ps.map Texts.both) (0, []) (PgcDiff.diffPair num o.wordsOnly o.showIdent
      (PgcDiff.compared o.relations relations1)) with er | s'
  · simp [hf, bind, Except.bind] at h
  simp only [hf, bind, Except.bind, pure, Except.pure, Except.ok.injEq] at h
  obtain ⟨out', e, f⟩ := pairs_print num ws repr o _ ps (0, []) s' 0 hf
  rw [List.nil_append] at e
  obtain rfl : out' = out := by rw [← e, h]
  obtain ⟨ts, k1, k2⟩ := f hc hs
  exact ⟨ts, k1, by unfold pgcDiff; rw [if_neg hn, header_silent, k2]; rfl⟩

/-- The graph pair has all that is needed to report these alignments: sentences, comments that are not empty elements, and
nodes with labels, positions and tokens; the labels of source nodes and the relations are ASCII. -/
structure Fits (comments : Bool) (p : Texts) (m : PgcDiff.Meant) : Prop where
  source : ∃ l, p.source.tokens = some l
  target : ∃ l, p.target.tokens = some l
  comments : comments = true → ¬ HasComment p.meta1 none ∧ ¬ HasComment p.meta2 none
  nodes : ∀ s t, (m.1 s t).isSome ∨ (m.2 s t).isSome →
    (∃ x, Describes p.source s x ∧ Ascii x.label) ∧ ∃ y, Describes p.target t y
  relations : ∀ s t r, m.1 s t = some r ∨ m.2 s t = some r → Ascii r ∧ ¬ Broken r.toList

private theorem reported_entry {num : String → Option Int} {b : Bool} {m : PgcDiff.Meant} {secs : List (Title × List Entry)}
    (h : PgcDiff.Reported num b m secs) {x : Title × List Entry} (hx : x ∈ secs) {e : Entry} (he : e ∈ x.2) :
    ((m.1 e.nodes.1 e.nodes.2).isSome ∨ (m.2 e.nodes.1 e.nodes.2).isSome) ∧
    e.rel1 = m.1 e.nodes.1 e.nodes.2 ∧ e.rel2 = m.2 e.nodes.1 e.nodes.2 := by
  have hp : e ∈ printed secs x.1 := by
    unfold printed
    rw [List.mem_flatMap]
    exact ⟨x, by simp [hx], he⟩
  refine ⟨?_, h.relations x.1 e hp⟩
  obtain ⟨hs, -⟩ := (h.exact x.1 e.nodes.1 e.nodes.2).1 ⟨e, hp, rfl⟩
  unfold sectionOf at hs
  cases h1 : m.1 e.nodes.1 e.nodes.2 <;> cases h2 : m.2 e.nodes.1 e.nodes.2 <;> simp [h1, h2] at hs ⊢

private theorem fits_complete {num : String → Option Int} {c b : Bool} {p : Texts} {m : PgcDiff.Meant} {secs : List (Title × List Entry)}
    (hf : Fits c p m) (h : PgcDiff.Reported num b m secs) : Complete c p secs ∧ Simple p secs := by
  refine ⟨⟨hf.source, hf.target, hf.comments, fun x hx e he => ?_⟩, fun x hx e he => ?_⟩
  · obtain ⟨h1, -⟩ := reported_entry h hx he
    obtain ⟨⟨y, h2, -⟩, h3⟩ := hf.nodes _ _ h1
    exact ⟨⟨y, h2⟩, h3⟩
  · obtain ⟨h1, h2, h3⟩ := reported_entry h hx he
    obtain ⟨⟨y, h4, h5⟩, -⟩ := hf.nodes _ _ h1
    rw [h2, h3]
    exact ⟨⟨fun z hz => by rw [describes_unique hz h4]; exact h5, fun r hr => by
      rw [h2, h3] at hr; exact (hf.relations _ _ r hr).1⟩, fun r hr => (hf.relations _ _ r hr).2⟩

private theorem forall₂_of {num : String → Option Int} {c b : Bool} : ∀ {ps : List Texts} {ms : List PgcDiff.Meant}
    {out : List (List (Title × List Entry))}, List.Forall₂ (Fits c) ps ms → List.Forall₂ (PgcDiff.Reported num b) ms out →
    List.Forall₂ (Complete c) ps out ∧ List.Forall₂ Simple ps out
  | [], [], [], .nil, .nil => ⟨.nil, .nil⟩
  | _ :: _, _ :: _, _ :: _, .cons h hs, .cons k ks =>
    ⟨.cons (fits_complete h k).1 (forall₂_of hs ks).1, .cons (fits_complete h k).2 (forall₂_of hs ks).2⟩

/-- C77.  The output for two corpora with the same graph pairs: for every graph pair its sentences, the comments on request,
and every pair of nodes aligned in one of the corpora exactly once under the title that says how the alignments differ,
with its number, both nodes and both relations. -/
theorem diff_printed (o : Opts) (ho : o.wordsOnly = false) (relations1 : List String) (ps : List Texts) (ms : List PgcDiff.Meant)
    (h : List.Forall₂ (PgcDiff.Shown num) (ps.map Texts.both) ms) (hw : ∀ m ∈ ms, PgcDiff.Complete o.relations relations1 m)
    (hf : List.Forall₂ (Fits o.showComments) ps ms) :
    ∃ out ts, List.Forall₂ (PgcDiff.Reported num o.showIdent) ms out ∧
      out.flatMap numbers = List.range' 1 (out.flatMap numbers).length ∧
      List.Forall₂ (fun x t => PairShows ws o.annot1 o.annot2 o.showComments x.1 x.2 t) (ps.zip out) ts ∧
      pgcDiff num ws repr o relations1 ps.length ps.length ps = (ts.flatten, none) := by
  obtain ⟨out, e, r, k⟩ := PgcDiff.diff_partition (showIdent := o.showIdent) h hw
  obtain ⟨c1, c2⟩ := forall₂_of hf r
  rw [List.length_map] at e
  obtain ⟨ts, k1, k2⟩ := report_printed num ws repr o relations1 ps.length ps.length ps out (by rw [ho]; exact e) c1 c2
  exact ⟨out, ts, r, k, k1, k2⟩

/-- C77.  If the corpora have the same alignments, and neither identical ones nor comments are asked for, the output consists
of the sentences only. -/
theorem same_printed (o : Opts) (ho : o.wordsOnly = false) (hi : o.showIdent = false) (hc : o.showComments = false)
    (relations1 : List String) (ps : List Texts) (ms : List PgcDiff.Meant)
    (h : List.Forall₂ (PgcDiff.Shown num) (ps.map Texts.both) ms) (hw : ∀ m ∈ ms, PgcDiff.Complete o.relations relations1 m)
    (hf : List.Forall₂ (Fits o.showComments) ps ms) (hm : ∀ m ∈ ms, m.1 = m.2) :
    ∃ ts, List.Forall₂ (fun p t => ∃ l l' s s', p.source.tokens = some l ∧ p.target.tokens = some l' ∧ Paragraph (words l) s ∧
        Paragraph (words l') s' ∧ t = s ++ s') ps ts ∧
      pgcDiff num ws repr o relations1 ps.length ps.length ps = (ts.flatten, none) := by
  obtain ⟨out, ts, r, -, k, e⟩ := diff_printed num ws repr o ho relations1 ps ms h hw hf
  refine ⟨ts, ?_, e⟩
  rw [hi] at r
  rw [hc] at k
  clear e h hw
  induction hf generalizing out ts with
  | nil =>
    rw [List.zip_nil_left] at k
    cases k; exact .nil
  | cons h1 h2 ih =>
    cases r with
    | cons r1 r2 =>
      cases k with
      | cons k1 k2 =>
        refine .cons ?_ (ih (fun m hx => hm m (by simp [hx])) _ _ r2 k2)
        have := (PgcDiff.diff_empty r1).2 (hm _ (by simp))
        subst this
        obtain ⟨s, s', c, c', us, ⟨l, a1, a2⟩, ⟨l', b1, b2⟩, hcc, hu, rfl⟩ := k1
        rw [if_neg (by simp)] at hcc
        obtain ⟨rfl, rfl⟩ := hcc
        cases hu
        exact ⟨l, l', s, s', a1, b1, a2, b2, by simp⟩

/-- C77, violated.  If the graph pairs have all that is shown, the report is complete exactly if the labels of the source
nodes and the relations that are reported are ASCII: otherwise it ends with a UnicodeError.  Labels of target nodes, words
and comments may be anything. -/
theorem unicode_labels (o : Opts) (relations1 : List String) (n1 n2 : Nat) (ps : List Texts) (out : List (List (Title × List Entry)))
    (h : PgcDiff.pgcDiff num o.wordsOnly o.showIdent o.relations relations1 n1 n2 (ps.map Texts.both) = .ok out)
    (hc : List.Forall₂ (Complete o.showComments) ps out) :
    (List.Forall₂ (fun p secs => ∀ x ∈ secs, ∀ e ∈ x.2, Plain p.source e) ps out →
      (pgcDiff num ws repr o relations1 n1 n2 ps).2 = none) ∧
    (¬ List.Forall₂ (fun p secs => ∀ x ∈ secs, ∀ e ∈ x.2, Plain p.source e) ps out →
      (pgcDiff num ws repr o relations1 n1 n2 ps).2 = some .unicodeError) := by
  unfold PgcDiff.pgcDiff at h
  by_cases hn : n1 ≠ n2
  · rw [if_pos hn] at h; cases h
  rw [if_neg hn] at h
  rcases hf : Py.forIn (ps.map Texts.both) (0, []) (PgcDiff.diffPair num o.wordsOnly o.showIdent
      (PgcDiff.compared o.relations relations1)) with er | s'
  · simp [hf, bind, Except.bind] at h
  simp only [hf, bind, Except.bind, pure, Except.pure, Except.ok.injEq] at h
  obtain ⟨out', e, f⟩ := pairs_end num ws repr o _ ps (0, []) s' 0 hf
  rw [List.nil_append] at e
  obtain rfl : out' = out := by rw [← e, h]
  unfold pgcDiff
  rw [if_neg hn, header_silent]
  exact f hc

/-- C77, violated.  The heads of the report, with the names of the corpora, are not written: the output does not depend on
these names. -/
theorem names_not_printed (o : Opts) (name1 name2 : Text) (relations1 : List String) (n1 n2 : Nat) (ps : List Texts) :
    pgcDiff num ws repr { o with corpusName1 := name1, corpusName2 := name2 } relations1 n1 n2 ps =
      pgcDiff num ws repr o relations1 n1 n2 ps := by
  have key : ∀ (ps : List Texts) (a b : Nat), printPairs num ws repr { o with corpusName1 := name1, corpusName2 := name2 }
      (PgcDiff.compared o.relations relations1) ps a b = printPairs num ws repr o (PgcDiff.compared o.relations relations1) ps a b := by
    intro ps
    induction ps with
    | nil => intros; rfl
    | cons p ps ih =>
      intro a b
      simp only [printPairs, printPair, ih]
  unfold pgcDiff
  simp only [header_silent, key]

/-- C77, violated.  With comments, a graph pair with an empty comment element ends the report with an AttributeError, after
the sentences. -/
theorem empty_comment (o : Opts) (ho : o.wordsOnly = false) (hc : o.showComments = true) (relations1 : List String) (p : Texts)
    (ps : List Texts) (m : PgcDiff.Meant) (h : PgcDiff.Shown num p.both m) {l l' : List String} (hl : p.source.tokens = some l)
    (hl' : p.target.tokens = some l') (he : HasComment p.meta1 none) :
    ∃ s s', Paragraph (words l) s ∧ Paragraph (words l') s' ∧
      pgcDiff num ws repr o relations1 (ps.length + 1) (ps.length + 1) (p :: ps) = (s ++ s', some .attributeError) := by
  obtain ⟨s, p1, q1⟩ := printTokens_ok hl
  obtain ⟨s', p2, q2⟩ := printTokens_ok hl'
  refine ⟨s, s', p1, p2, ?_⟩
  obtain ⟨l1, e1, d1, m1⟩ := h.first.some (PgcDiff.compared o.relations relations1)
  obtain ⟨l2, e2, d2, m2⟩ := h.second.some (PgcDiff.compared o.relations relations1)
  have hp : ∃ q, Verif.PgcDiff.parts false (Verif.PgcDiff.compared o.relations relations1) p.both = .ok q :=
    let ⟨q, hq, _⟩ := Verif.PgcDiff.parts_good h.first.get h.second.get (fun s t => (h.named s t).1) (fun s t => (h.named s t).2)
      e1 d1 m1 e2 d2 m2
    ⟨q, hq⟩
  obtain ⟨q, hq⟩ := hp
  unfold pgcDiff
  rw [if_neg (by simp), header_silent]
  simp only [printPairs, printPair, h.same, if_true, ho, hq, after, header_silent, q1, q2, hc, comments_error ws o.annot1 he,
    Out.andThen, List.nil_append, List.append_nil]

/-- C77.  Corpora with different numbers of graph pairs, or with different graphs in the first graph pair, are refused before
anything is written. -/
theorem refused (o : Opts) (relations1 : List String) :
    (∀ n1 n2 ps, n1 ≠ n2 → pgcDiff num ws repr o relations1 n1 n2 ps = ([], some .assertionError)) ∧
    ∀ n p ps, p.both.same = false → pgcDiff num ws repr o relations1 n n (p :: ps) = ([], some .assertionError) := by
  constructor
  · intro n1 n2 ps h
    unfold pgcDiff; rw [if_pos h]
  · intro n p ps h
    unfold pgcDiff
    rw [if_neg (by simp), header_silent]
    simp only [printPairs, printPair, h, andThen_ok, List.nil_append, Bool.false_eq_true, if_false]

/-- C77.  When values are missing: a source node whose label is None breaks a section off after the number (AttributeError),
while a target node is shown with None for its label or its tokens; a missing attribute raises KeyError. -/
theorem missing_values (p : Texts) (title : Text) (count : Nat) (n : Verif.PgcDiff.Nodes) (rest : List Verif.PgcDiff.Nodes) (r1 r2 : Option String)
    (h1 : Verif.GraphPair.getAlign p.both.first n.1 n.2 = .ok r1) (h2 : Verif.GraphPair.getAlign p.both.second n.1 n.2 = .ok r2)
    (hr : ∀ r, r1 = some r ∨ r2 = some r → Ascii r ∧ ¬ Broken r.toList) :
    (∀ a, p.source.graph.node.get? n.1 = some a → (p.source.graph.nheap a).get? "label" = some .none →
      printAlignments repr p title count (n :: rest) =
        (head title ++ Spec.AlignPrint.ended ["#".toList ++ Spec.AlignPrint.decimal (count + 1) ++ ":".toList], some .attributeError)) ∧
    (p.source.graph.node.get? n.1 = none → printAlignments repr p title count (n :: rest) =
        (head title ++ Spec.AlignPrint.ended ["#".toList ++ Spec.AlignPrint.decimal (count + 1) ++ ":".toList], some .keyError)) ∧
    (∀ x b c d e, Describes p.source n.1 x → Ascii x.label → p.target.graph.node.get? n.2 = some b →
      (p.target.graph.nheap b).get? "label" = some .none → (p.target.graph.nheap b).get? "begin" = some (.str c) →
      (p.target.graph.nheap b).get? "end" = some (.str d) → (p.target.graph.nheap b).get? "tokens" = e → (e = none ∨ e = some .none) →
      printAlignments repr p title count [n] = (head title ++ Spec.AlignPrint.ended [
        "#".toList ++ Spec.AlignPrint.decimal (count + 1) ++ ":".toList, nodeText n.1 x,
        "<<< ".toList ++ relText r1 ++ " / ".toList ++ relText r2 ++ " >>>".toList,
        ("(" ++ n.2 ++ ") None [" ++ c ++ ":" ++ d ++ "]: \"None\"").toList, []], none)) := by
  obtain ⟨a, a1, a2, a3⟩ := strRel_ok (r := r1) fun z hz => hr z (Or.inl hz)
  obtain ⟨b, b1, b2, b3⟩ := strRel_ok (r := r2) fun z hz => hr z (Or.inr hz)
  rw [a2] at a3
  rw [b2] at b3
  refine ⟨fun i hi hl => ?_, fun hi => ?_, fun x i c d e hx ha hi hl hc hd he hE => ?_⟩
  · have hs : sourceLine repr p.source n.1 = .error .attributeError := by
      simp only [sourceLine, nodeAttr, AD.get, hi, hl, encoded, bind, Except.bind]
    simp only [printAlignments, List.cons_ne_nil, if_false, header_eq, printEntries, printEntry, h1, h2, a1, b1, after, hs, put, items,
      bind, Except.bind, Out.andThen, Spec.AlignPrint.ended, List.map_cons, List.map_nil, List.flatten_cons, List.flatten_nil,
      List.append_nil, str_decimal]
  · have hs : sourceLine repr p.source n.1 = .error .keyError := by
      simp only [sourceLine, nodeAttr, AD.get, hi, bind, Except.bind]
    simp only [printAlignments, List.cons_ne_nil, if_false, header_eq, printEntries, printEntry, h1, h2, a1, b1, after, hs, put, items,
      bind, Except.bind, Out.andThen, Spec.AlignPrint.ended, List.map_cons, List.map_nil, List.flatten_cons, List.flatten_nil,
      List.append_nil, str_decimal]
  · have ht : targetLine repr p.target n.2 = .ok ("(" ++ n.2 ++ ") None [" ++ c ++ ":" ++ d ++ "]: \"None\"").toList := by
      have htok : Verif.Phrases.tokenString p.target n.2 = none := by
        rcases hE with hE | hE <;> rw [hE] at he <;> simp only [Verif.Phrases.tokenString, DaesoGraph.nodeTokens, AD.get, hi, he]
      simp only [targetLine, nodeAttr, AD.get, hi, hl, hc, hd, htok, shown, shownText, nodeLine, bind, Except.bind, pure, Except.pure,
        String.toList_append, List.append_assoc]
      have e1 : ") None [".toList = ") ".toList ++ ("None".toList ++ " [".toList) := by decide
      have e2 : "]: \"None\"".toList = "]: \"".toList ++ ("None".toList ++ "\"".toList) := by decide
      rw [e1, e2]
      simp only [List.append_assoc]
    simp only [printAlignments, List.cons_ne_nil, if_false, header_eq, printEntries, printEntry, h1, h2, a1, b1, after,
      sourceLine_ok repr hx ha, ht, put, a2, b2, items_rel a3 b3, bind, Except.bind, Out.andThen, Spec.AlignPrint.ended, List.map_cons,
      List.map_nil, List.flatten_cons, List.flatten_nil, List.append_nil, str_decimal]
    simp only [items, List.append_assoc, List.nil_append]

/-! ### A case that meets the hypotheses -/

/-- Nodes with label, position and tokens. -/
private def graph (tokens : List String) (l : List (String × Node)) : DaesoGraph.DG String :=
  ⟨{ Graph.empty with
      node := l.zipIdx.map fun x => (x.1.1, x.2)
      nheap := fun i => match l[i]? with
        | none => []
        | some x => [("label", .str x.2.label), ("begin", .str x.2.first), ("end", .str x.2.last), ("tokens", .toks x.2.tokens)] },
    some tokens, none⟩

private def align (l : List (String × String × String)) : Graph.G String String :=
  match GraphPair.run false Verif.Graph.empty (l.map fun x => .add x.1 x.2.1 x.2.2) with
  | .ok x => x.1
  | .error _ => Verif.Graph.empty

private theorem shows_align (l : List (String × String × String)) :
    GraphPair.Shows (align l) (GraphPair.runSpec GraphPair.meantMapping Alignment.none
      (l.map fun x => .add x.1 x.2.1 x.2.2)).1 := by
  obtain ⟨g, e, h⟩ := GraphPair.mapping_refines (κ := String) (ρ := String) (l.map fun x => .add x.1 x.2.1 x.2.2)
  unfold align
  rw [e]
  exact h

private def both (l m : List (String × String × String)) : Verif.PgcDiff.Both := ⟨align l, align m, true, fun _ => .ok true, fun _ => .ok true⟩

private def comment (t : Option Text) : Option Elem := some (.mk "meta_data" [] none none [.mk "comment" [] t none []])

private def cat (label : String) : Texts :=
  ⟨both [("1", "2", "equals"), ("3", "4", "restates")] [("1", "2", "equals")],
    graph ["een", "kät"] [("1", ⟨label, "0", "1", ["een"]⟩), ("3", ⟨"n", "1", "2", ["kät"]⟩)],
    graph ["a", "cat"] [("2", ⟨"dét", "0", "1", ["a"]⟩), ("4", ⟨"n", "1", "2", ["cat"]⟩)],
    comment (some "hm".toList), none⟩

private def opts (ident : Bool) : Opts := ⟨[], [], "A".toList, "B".toList, false, true, ident, none⟩

private def digits (s : String) : Option Int := if s = "1" then some 1 else if s = "3" then some 3 else none

private def rule : String := "--------------------------------------------------------------------------------\n"

example : pgcDiff digits (· = ' ') (fun _ => []) (opts false) [] 1 1 [cat "det"] =
    (("een kät \n\na cat \n\n" ++ rule ++ "Comments by A\n" ++ rule ++ "\nhm \n\n" ++ rule ++ "A only\n" ++ rule ++
      "\n#1:\n(3) n [1:2]: \"kät\"\n<<< RESTATES / NONE >>>\n(4) n [1:2]: \"cat\"\n\n").toList, none) := by decide +kernel

/-- The identical alignment comes first: its source node has an accent. -/
example : pgcDiff digits (· = ' ') (fun _ => []) (opts true) [] 1 1 [cat "dét"] =
    (("een kät \n\na cat \n\n" ++ rule ++ "Comments by A\n" ++ rule ++ "\nhm \n\n" ++ rule ++ "Identical\n" ++ rule ++
      "\n#1:\n").toList, some .unicodeError) := by decide +kernel

example : pgcDiff digits (· = ' ') (fun _ => []) (opts false) [] 1 1 [{ cat "det" with meta1 := comment none }] =
    ("een kät \n\na cat \n\n".toList, some .attributeError) := by decide +kernel

private theorem described {ts : List String} {l : List (String × Node)} {n : String} {x : Node} (i : Nat) (h : l[i]? = some (n, x))
    (hn : AD.get? (l.zipIdx.map fun x => (x.1.1, x.2)) n = some i) : Describes (graph ts l) n x := by
  refine ⟨i, hn, ?_, ?_, ?_, ?_⟩ <;> simp only [graph, h] <;> rfl

private def first (s t : String) : Option String :=
  if s = "3" ∧ t = "4" then some "restates" else if s = "1" ∧ t = "2" then some "equals" else none
private def second (s t : String) : Option String := if s = "1" ∧ t = "2" then some "equals" else none

/-- The hypotheses of `diff_printed` hold for the sample. -/
example : ∃ m, PgcDiff.Shown digits (cat "det").both m ∧ PgcDiff.Complete none [] m ∧ Fits true (cat "det") m ∧
    m.1 "3" "4" = some "restates" := by
  have h1 : GraphPair.Shows (align [("1", "2", "equals"), ("3", "4", "restates")]) first :=
    shows_align [("1", "2", "equals"), ("3", "4", "restates")]
  have h2 : GraphPair.Shows (align [("1", "2", "equals")]) second := shows_align [("1", "2", "equals")]
  refine ⟨(first, second), ⟨rfl, h1, h2, ?_, ?_⟩, fun _ _ _ _ => Or.inl rfl, ⟨⟨_, rfl⟩, ⟨_, rfl⟩, ?_, ?_, ?_⟩, ?_⟩
  · intro s t
    unfold first second
    dsimp only
    constructor
    · split
      · simp
      · split <;> simp
    · split <;> simp
  · intro s t h
    unfold first second at h
    dsimp only at h
    by_cases h1 : s = "3" ∧ t = "4"
    · rw [h1.1]; rfl
    · by_cases h2 : s = "1" ∧ t = "2"
      · rw [h2.1]; rfl
      · simp [h1, h2] at h
  · intro _
    constructor
    · rw [hasComment_iff]; decide
    · rw [hasComment_iff]; simp [cat]
  · intro s t h
    unfold first second at h
    dsimp only at h
    by_cases h1 : s = "3" ∧ t = "4"
    · obtain ⟨rfl, rfl⟩ := h1
      exact ⟨⟨_, described 1 rfl (by decide), by rw [← ascii_iff]; decide⟩, _, described 1 rfl (by decide)⟩
    · by_cases h2 : s = "1" ∧ t = "2"
      · obtain ⟨rfl, rfl⟩ := h2
        exact ⟨⟨_, described 0 rfl (by decide), by rw [← ascii_iff]; decide⟩, _, described 0 rfl (by decide)⟩
      · simp [h1, h2] at h
  · intro s t r h
    unfold first second at h
    dsimp only at h
    have : r = "restates" ∨ r = "equals" := by
      by_cases h1 : s = "3" ∧ t = "4"
      · rw [if_pos h1] at h
        simp only [h1.1, h1.2] at h
        rcases h with h | h
        · exact Or.inl (by simpa using h.symm)
        · simp at h
      · by_cases h2 : s = "1" ∧ t = "2"
        · simp [h1, h2] at h; exact Or.inr h.symm
        · simp [h1, h2] at h
    rcases this with rfl | rfl
    · exact ⟨by rw [← ascii_iff]; decide, by rw [broken_iff]; decide⟩
    · exact ⟨by rw [← ascii_iff]; decide, by rw [broken_iff]; decide⟩
  · rfl

end Verif.Props.DiffPrint
