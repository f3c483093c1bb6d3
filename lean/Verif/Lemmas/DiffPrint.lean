import Verif.Spec.DiffPrint
import Verif.Lemmas.PgcDiff
import Verif.Lemmas.Phrases
import Verif.Lemmas.EvalPrint

set_option linter.unusedSectionVars false

namespace Verif.DiffPrint
open Verif Verif.Etree Verif.PgcDiff Verif.DaesoGraph Verif.AlignPrint Verif.Spec.DiffPrint Verif.Spec.AlignPrint

theorem andThen_ok (t : Text) (o : Out) : Out.andThen (t, none) o = (t ++ o.1, o.2) := rfl

theorem ascii_iff (s : String) : ascii s.toList = true ↔ Ascii s := by
  simp [ascii, Ascii]

theorem broken_iff (t : Text) : Broken t ↔ gap t = [] := by
  unfold Broken gap
  cases t.getLast? with
  | none => simp
  | some c => simp only [Option.mem_def, Option.some.injEq, exists_eq_left', List.mem_cons, List.not_mem_nil, or_false, ite_eq_left_iff,
      List.cons_ne_nil, imp_false, not_not]

theorem toUpper_small {c : Char} (h : c.toUpper.toNat < 65) : c.toUpper = c := by
  unfold Char.toUpper at h ⊢
  by_cases hc : 'a'.val ≤ c.val ∧ c.val ≤ 'z'.val
  · rw [dif_pos hc] at h
    exfalso
    have h1 : 97 ≤ c.val.toNat := UInt32.le_iff_toNat_le.1 hc.1
    have h2 : c.val.toNat ≤ 122 := UInt32.le_iff_toNat_le.1 hc.2
    have h3 : (c.val + ('A'.val - 'a'.val)).toNat < 65 := h
    rw [UInt32.toNat_add] at h3
    have h4 : ('A'.val - 'a'.val).toNat = 4294967264 := by decide
    rw [h4] at h3
    omega
  · rw [dif_neg hc]

theorem gap_of {t : Text} (h : ¬ Broken t) : gap t = [' '] := by
  rw [broken_iff] at h
  unfold gap at h ⊢
  cases hl : t.getLast? with
  | none => rfl
  | some c =>
    rw [hl] at h
    dsimp only at h ⊢
    split
    · rename_i hc; rw [if_pos hc] at h; exact absurd rfl h
    · rfl

theorem describes_attr {g : DG String} {n : String} {x : Node} (h : Describes g n x) :
    nodeAttr g n "label" = .ok (.str x.label) ∧ nodeAttr g n "begin" = .ok (.str x.first) ∧
    nodeAttr g n "end" = .ok (.str x.last) ∧ Phrases.tokenString g n = some (words x.tokens) := by
  obtain ⟨a, h0, h1, h2, h3, h4⟩ := h
  refine ⟨?_, ?_, ?_, ?_⟩
  · simp only [nodeAttr, AD.get, h0, h1]
  · simp only [nodeAttr, AD.get, h0, h2]
  · simp only [nodeAttr, AD.get, h0, h3]
  · simp only [Phrases.tokenString, nodeTokens, AD.get, h0, h4, getNodeTokenString, Phrases.join_eq, words]

theorem nodeLine_eq (n : String) (x : Node) :
    nodeLine n.toList x.label.toList x.first.toList x.last.toList (words x.tokens) = nodeText n x := by
  unfold nodeLine nodeText
  simp only [String.toList_append, List.append_assoc]
  rfl

theorem sourceLine_ok (repr : List String → Text) {g : DG String} {n : String} {x : Node} (h : Describes g n x)
    (ha : Ascii x.label) : sourceLine repr g n = .ok (nodeText n x) := by
  obtain ⟨h1, h2, h3, h4⟩ := describes_attr h
  simp only [sourceLine, h1, h2, h3, h4, encoded, (ascii_iff _).2 ha, shown, shownText, nodeLine_eq, bind, Except.bind, pure,
    Except.pure, if_true]

theorem sourceLine_error (repr : List String → Text) {g : DG String} {n : String} {x : Node} (h : Describes g n x)
    (ha : ¬ Ascii x.label) : sourceLine repr g n = .error .unicodeError := by
  obtain ⟨h1, h2, h3, h4⟩ := describes_attr h
  rw [← ascii_iff] at ha
  simp only [sourceLine, h1, h2, h3, encoded, ha, bind, Except.bind, if_false, Bool.false_eq_true]

theorem targetLine_ok (repr : List String → Text) {g : DG String} {n : String} {x : Node} (h : Describes g n x) :
    targetLine repr g n = .ok (nodeText n x) := by
  obtain ⟨h1, h2, h3, h4⟩ := describes_attr h
  simp only [targetLine, h1, h2, h3, h4, shown, shownText, nodeLine_eq, bind, Except.bind, pure, Except.pure]

theorem strRel_ok {r : Option String} (h : ∀ x, r = some x → Ascii x ∧ ¬ Broken x.toList) :
    ∃ t, strRel r = .ok t ∧ t.map Char.toUpper = relText r ∧ gap (t.map Char.toUpper) = [' '] := by
  cases r with
  | none => exact ⟨"None".toList, rfl, by decide, by decide⟩
  | some x =>
    obtain ⟨h1, h2⟩ := h x rfl
    refine ⟨x.toList, ?_, rfl, gap_of ?_⟩
    · simp only [strRel, (ascii_iff x).2 h1, if_true]
    · rintro ⟨c, hc, hb⟩
      refine h2 ?_
      rw [List.getLast?_map, Option.mem_def, Option.map_eq_some_iff] at hc
      obtain ⟨d, hd, rfl⟩ := hc
      refine ⟨d, hd, ?_⟩
      have hlow : d.toUpper = d := toUpper_small (by rcases hb with hb | hb | hb | hb | hb <;> rw [hb] <;> decide)
      rwa [hlow] at hb

/-- The pair of nodes can be shown. -/
def Showable (source target : DG String) (e : Entry) : Prop :=
  (∃ x, Describes source e.nodes.1 x ∧ Ascii x.label) ∧ (∃ y, Describes target e.nodes.2 y) ∧
    ∀ r, e.rel1 = some r ∨ e.rel2 = some r → Ascii r ∧ ¬ Broken r.toList

theorem showable_of {source target : DG String} {e : Entry} (h1 : Described source target e) (h2 : Plain source e)
    (h3 : ∀ r, e.rel1 = some r ∨ e.rel2 = some r → ¬ Broken r.toList) : Showable source target e := by
  obtain ⟨⟨x, hx⟩, hy⟩ := h1
  exact ⟨⟨x, hx, h2.1 x hx⟩, hy, fun r hr => ⟨h2.2 r hr, h3 r hr⟩⟩

theorem items_rel {a b : Text} (ha : gap a = [' ']) (hb : gap b = [' ']) :
    items ["<<<".toList, a, "/".toList, b, ">>>".toList] =
      "<<< ".toList ++ a ++ " / ".toList ++ b ++ " >>>".toList := by
  have h1 : gap "<<<".toList = [' '] := by decide
  have h2 : gap "/".toList = [' '] := by decide
  have e1 : "<<< ".toList = "<<<".toList ++ [' '] := by decide
  have e2 : " / ".toList = [' '] ++ "/".toList ++ [' '] := by decide
  have e3 : " >>>".toList = [' '] ++ ">>>".toList := by decide
  simp only [items, ha, hb, h1, h2, e1, e2, e3, List.append_assoc]

theorem printEntry_ok (repr : List String → Text) {p : Texts} {k : Nat} {n : Nodes} {r1 r2 : Option String}
    (h1 : GraphPair.getAlign p.both.first n.1 n.2 = .ok r1) (h2 : GraphPair.getAlign p.both.second n.1 n.2 = .ok r2)
    (hs : Showable p.source p.target ⟨k, n, r1, r2⟩) :
    ∃ t, EntryShows p.source p.target ⟨k, n, r1, r2⟩ t ∧ printEntry repr p k n = (t, none) := by
  obtain ⟨⟨x, hx, ha⟩, ⟨y, hy⟩, hr⟩ := hs
  obtain ⟨a, a1, a2, a3⟩ := strRel_ok (r := r1) fun z hz => hr z (Or.inl hz)
  obtain ⟨b, b1, b2, b3⟩ := strRel_ok (r := r2) fun z hz => hr z (Or.inr hz)
  refine ⟨_, ⟨x, y, hx, hy, rfl⟩, ?_⟩
  simp only [printEntry, h1, h2, a1, b1, after, sourceLine_ok repr hx ha, targetLine_ok repr hy, bind, Except.bind, put,
    andThen_ok, a2, b2, str_decimal]
  rw [a2] at a3
  rw [b2] at b3
  rw [items_rel a3 b3]
  simp only [items, ended, List.map_cons, List.map_nil, List.flatten_cons, List.flatten_nil, List.append_assoc, List.append_nil,
    List.nil_append]

theorem printEntries_ok (repr : List String → Text) (p : Texts) : ∀ (l : List Nodes) (c c' : Nat) (acc ents : List Entry),
    Py.forIn l (c, acc) (fun n s => do
      let rel1 ← GraphPair.getAlign p.both.first n.1 n.2
      let rel2 ← GraphPair.getAlign p.both.second n.1 n.2
      return (s.1 + 1, s.2 ++ [⟨s.1 + 1, n, rel1, rel2⟩])) = .ok (c', ents) →
    ∃ es, ents = acc ++ es ∧ c' = c + l.length ∧ (es = [] ↔ l = []) ∧ ((∀ e ∈ es, Showable p.source p.target e) →
      ∃ ts, List.Forall₂ (EntryShows p.source p.target) es ts ∧ printEntries repr p c l = (ts.flatten, none))
  | [], c, c', acc, ents, h => by
    simp only [Py.forIn, Except.ok.injEq, Prod.mk.injEq] at h
    obtain ⟨rfl, rfl⟩ := h
    exact ⟨[], by simp, by simp, by simp, fun _ => ⟨[], .nil, rfl⟩⟩
  | n :: l, c, c', acc, ents, h => by
    unfold Py.forIn at h
    rcases h1 : GraphPair.getAlign p.both.first n.1 n.2 with er | r1
    · simp [h1, bind, Except.bind] at h
    rcases h2 : GraphPair.getAlign p.both.second n.1 n.2 with er | r2
    · simp [h1, h2, bind, Except.bind] at h
    simp only [h1, h2, bind, Except.bind, pure, Except.pure] at h
    obtain ⟨es, e1, e2, -, e3⟩ := printEntries_ok repr p l (c + 1) c' (acc ++ [⟨c + 1, n, r1, r2⟩]) ents h
    refine ⟨⟨c + 1, n, r1, r2⟩ :: es, by simp [e1], by rw [e2, List.length_cons]; omega, by simp, fun hs => ?_⟩
    obtain ⟨t, ht, hp⟩ := printEntry_ok repr h1 h2 (hs ⟨c + 1, n, r1, r2⟩ (by simp))
    obtain ⟨ts, hts, hps⟩ := e3 fun e he => hs e (by simp [he])
    refine ⟨t :: ts, .cons ht hts, ?_⟩
    simp only [printEntries, hp, hps, andThen_ok, List.flatten_cons]

theorem header_eq (title : Text) : header title true 80 '-' = (head title, none) := by
  unfold header head
  have : "\n\n".toList = ['\n', '\n'] := by decide
  simp only [if_true, ended, this, List.map_cons, List.map_nil, List.flatten_cons, List.flatten_nil, List.append_assoc,
    List.nil_append, List.append_nil, List.cons_append]

/-- One section that is reported, as it is printed. -/
theorem section_print (num : String → Option Int) (repr : List String → Text) (a1 a2 : Text) (p : Texts) (t : Title) (l : List Nodes)
    (s s' : Nat × List (Title × List Entry)) (h : section' num p.both t l s = .ok s') :
    ∃ new, s'.2 = s.2 ++ new ∧ ((∀ x ∈ new, ∀ e ∈ x.2, Showable p.source p.target e) →
      ∃ ts, List.Forall₂ (SectionShows a1 a2 p.source p.target) new ts ∧
        ∀ rest, printSection num repr p (titleText a1 a2 t) s.1 l rest = Out.andThen (ts.flatten, none) (rest s'.1)) := by
  unfold section' at h
  rcases hl : sortNodes num l with er | l'
  · simp [hl, bind, Except.bind] at h
  rcases hp : PgcDiff.printAlignments p.both s.1 l' with er | ⟨c', ents⟩
  · simp [hl, hp, bind, Except.bind] at h
  simp only [hl, hp, bind, Except.bind, pure, Except.pure, Except.ok.injEq] at h
  subst h
  obtain ⟨es, e1, e2, e3, e4⟩ := printEntries_ok repr p l' s.1 c' [] ents hp
  rw [List.nil_append] at e1
  subst e1
  by_cases hn : l' = []
  · refine ⟨[], by simp [hn], fun _ => ⟨[], .nil, fun rest => ?_⟩⟩
    simp only [printSection, hl, after, printAlignments, hn, if_true, andThen_ok, List.flatten_nil, List.length_nil,
      Nat.add_zero]
    subst hn
    simp only [List.length_nil, Nat.add_zero] at e2
    rw [e2]
  · refine ⟨[(t, ents)], by simp [hn], fun hs => ?_⟩
    obtain ⟨ts, hts, hps⟩ := e4 fun e he => hs (t, ents) (by simp) e he
    refine ⟨[_], .cons ⟨ts, hts, rfl⟩ .nil, fun rest => ?_⟩
    simp only [printSection, hl, after, printAlignments, if_neg hn, header_eq, hps, andThen_ok, List.flatten_cons,
      List.flatten_nil, List.append_nil, e2]

theorem paragraph_ok (t : Text) : ∃ q, Paragraph t q ∧ put [t, ['\n']] = (q, none) := by
  refine ⟨_, ?_, rfl⟩
  have e1 : "\n\n".toList = ['\n', '\n'] := by decide
  have e2 : " \n\n".toList = [' ', '\n', '\n'] := by decide
  constructor
  · intro hb
    rw [(broken_iff t).1 hb |> fun h => (by simp [items, h] : items [t, ['\n']] = t ++ ['\n']), e1]
    simp
  · intro hb
    rw [(by simp [items, gap_of hb] : items [t, ['\n']] = t ++ [' ', '\n']), e2]
    simp

theorem printTokens_ok {g : DG String} {l : List String} (h : g.tokens = some l) :
    ∃ q, Paragraph (words l) q ∧ printTokens g = (q, none) := by
  obtain ⟨q, h1, h2⟩ := paragraph_ok (words l)
  refine ⟨q, h1, ?_⟩
  unfold words at h2
  simp only [printTokens, h, getGraphTokenString, Phrases.join_eq, h2]

theorem hasComment_iff (m : Option Elem) (c : Option Text) : HasComment m c ↔
    ∃ x, (m.bind fun e => e.children.find? fun c => c.tag = "comment") = some x ∧ x.text = c := by
  constructor
  · rintro ⟨e, before, x, after, rfl, h1, h2, h3, h4⟩
    refine ⟨x, ?_, h4⟩
    rw [Option.bind_some, List.find?_eq_some_iff_append]
    exact ⟨by simp [h3], before, after, h1, fun a ha => by simp [h2 a ha]⟩
  · rintro ⟨x, h, h4⟩
    rcases m with - | e
    · cases h
    rw [Option.bind_some, List.find?_eq_some_iff_append] at h
    obtain ⟨h3, before, after, h1, h2⟩ := h
    exact ⟨e, before, x, after, rfl, h1, fun y hy => by simpa using h2 y hy, by simpa using h3, h4⟩

theorem dropWhile_nil {p : Char → Bool} : ∀ {l : List Char}, l.dropWhile p = [] ↔ ∀ c ∈ l, p c = true
  | [] => by simp
  | c :: l => by
    rw [List.dropWhile_cons]
    by_cases h : p c = true
    · rw [if_pos h, dropWhile_nil]; simp [h]
    · rw [if_neg h]; simp [h]

theorem strip_nil {ws : Char → Bool} {x : Text} : strip ws x = [] ↔ ∀ c ∈ x, ws c = true := by
  unfold strip
  rw [List.reverse_eq_nil_iff, dropWhile_nil]
  constructor
  · intro h c hc
    by_contra hn
    have : c ∈ x.dropWhile ws := by
      rw [← List.takeWhile_append_dropWhile (p := ws) (l := x), List.mem_append] at hc
      rcases hc with hc | hc
      · exact absurd (List.mem_takeWhile_imp hc) hn
      · exact hc
    exact hn (h c (by simpa using this))
  · intro h c hc
    exact h c ((List.dropWhile_sublist _).mem (by simpa using hc))

theorem comments_ok (ws : Char → Bool) (m : Option Elem) (annot : Text) (h : ¬ HasComment m none) :
    ∃ t, CommentShows ws annot m t ∧ printComments ws m annot = (t, none) := by
  unfold printComments
  rcases hf : (m.bind fun e => e.children.find? fun c => c.tag = "comment") with - | x
  · refine ⟨[], ⟨fun c hc => ?_, fun _ => rfl⟩, by rw [hf]⟩
    rw [hasComment_iff, hf] at hc
    simp at hc
  · rcases hx : x.text with - | t
    · exact absurd ((hasComment_iff m none).2 ⟨x, hf, hx⟩) h
    have key : ∀ c, HasComment m (some c) ↔ c = t := by
      intro c
      rw [hasComment_iff, hf]
      simp [hx, eq_comm]
    by_cases hb : strip ws t = []
    · refine ⟨[], ⟨fun c hc ⟨a, ha, hw⟩ => ?_, fun _ => rfl⟩, by simp only [hf, hx, if_pos hb]⟩
      rw [(key c).1 hc] at ha
      rw [strip_nil.1 hb a ha] at hw
      cases hw
    · obtain ⟨q, h1, h2⟩ := paragraph_ok t
      refine ⟨head ("Comments by ".toList ++ annot) ++ q, ⟨fun c hc _ => ?_, fun ha => ?_⟩, ?_⟩
      · rw [(key c).1 hc]; exact ⟨q, h1, rfl⟩
      · exact absurd (strip_nil.2 (ha t ((key t).2 rfl))) hb
      · simp only [hf, hx, if_neg hb, header_eq, h2, andThen_ok]

theorem comments_error (ws : Char → Bool) {m : Option Elem} (annot : Text) (h : HasComment m none) :
    printComments ws m annot = ([], some .attributeError) := by
  obtain ⟨x, h1, h2⟩ := (hasComment_iff m none).1 h
  unfold printComments
  rw [h1]
  dsimp only
  rw [h2]

theorem header_silent (title : Text) (w : Nat) (c : Char) : header title false w c = ([], none) := rfl

/-- A graph pair that is reported, as it is printed. -/
theorem pair_print (num : String → Option Int) (ws : Char → Bool) (repr : List String → Text) (o : Opts) (relations : List String)
    (p : Texts) (s s' : Nat × List (List (Title × List Entry)))
    (h : diffPair num o.wordsOnly o.showIdent relations p.both s = .ok s') :
    ∃ secs, s'.2 = s.2 ++ [secs] ∧ (Complete o.showComments p secs → Simple p secs → ∃ t, PairShows ws o.annot1 o.annot2 o.showComments p secs t ∧
      ∀ pairs rest, printPair num ws repr o relations p pairs s.1 rest = Out.andThen (t, none) (rest s'.1)) := by
  unfold diffPair at h
  by_cases hsame : p.both.same = true
  swap
  · rw [if_neg hsame] at h; cases h
  rw [if_pos hsame] at h
  rcases hq : parts o.wordsOnly relations p.both with er | q
  · simp [hq, bind, Except.bind] at h
  rcases h1 : (if o.showIdent = true then section' num p.both .identical q.ident (s.1, []) else pure (s.1, []) :
      Py (Nat × List (Title × List Entry))) with er | o1
  · simp only [hq, h1, bind, Except.bind] at h; cases h
  rcases h2 : section' num p.both .relationDifferent q.relDiff o1 with er | o2
  · simp only [hq, h1, h2, bind, Except.bind] at h; cases h
  rcases h3 : section' num p.both .only1 q.uniq1 o2 with er | o3
  · simp only [hq, h1, h2, h3, bind, Except.bind] at h; cases h
  rcases h4 : section' num p.both .only2 q.uniq2 o3 with er | o4
  · simp only [hq, h1, h2, h3, h4, bind, Except.bind] at h; cases h
  simp only [hq, h1, h2, h3, h4, bind, Except.bind] at h
  injection h with h
  subst h
  have s1 : ∃ new, o1.2 = new ∧ ((∀ x ∈ new, ∀ e ∈ x.2, Showable p.source p.target e) →
      ∃ ts, List.Forall₂ (SectionShows o.annot1 o.annot2 p.source p.target) new ts ∧ ∀ rest : Nat → Out,
        (if o.showIdent then printSection num repr p "Identical".toList s.1 q.ident else fun f => f s.1) rest =
          Out.andThen (ts.flatten, none) (rest o1.1)) := by
    by_cases hi : o.showIdent = true
    · rw [if_pos hi] at h1
      obtain ⟨new, e, f⟩ := section_print num repr o.annot1 o.annot2 p .identical q.ident (s.1, []) o1 h1
      refine ⟨new, by simpa using e, fun hs => ?_⟩
      obtain ⟨ts, g1, g2⟩ := f hs
      exact ⟨ts, g1, fun rest => by rw [if_pos hi]; exact g2 rest⟩
    · rw [if_neg hi] at h1
      cases h1
      exact ⟨[], rfl, fun _ => ⟨[], .nil, fun rest => by rw [if_neg hi]; rfl⟩⟩
  obtain ⟨n1, e1, f1⟩ := s1
  obtain ⟨n2, e2, f2⟩ := section_print num repr o.annot1 o.annot2 p .relationDifferent q.relDiff o1 o2 h2
  obtain ⟨n3, e3, f3⟩ := section_print num repr o.annot1 o.annot2 p .only1 q.uniq1 o2 o3 h3
  obtain ⟨n4, e4, f4⟩ := section_print num repr o.annot1 o.annot2 p .only2 q.uniq2 o3 o4 h4
  have e5 : o4.2 = n1 ++ n2 ++ n3 ++ n4 := by rw [e4, e3, e2, e1]
  refine ⟨o4.2, rfl, fun hp hsimple => ?_⟩
  have hent : ∀ x ∈ o4.2, ∀ e ∈ x.2, Showable p.source p.target e := fun x hx e he =>
    showable_of (hp.entries x hx e he) (hsimple x hx e he).1 (hsimple x hx e he).2
  rw [e5] at hent
  simp only [List.mem_append] at hent
  obtain ⟨t1, g1, k1⟩ := f1 fun x hx => hent x (by simp [hx])
  obtain ⟨t2, g2, k2⟩ := f2 fun x hx => hent x (by simp [hx])
  obtain ⟨t3, g3, k3⟩ := f3 fun x hx => hent x (by simp [hx])
  obtain ⟨t4, g4, k4⟩ := f4 fun x hx => hent x (by simp [hx])
  obtain ⟨ls, hls⟩ := hp.source
  obtain ⟨lt, hlt⟩ := hp.target
  obtain ⟨ss, ps, qs⟩ := printTokens_ok hls
  obtain ⟨st, pt, qt⟩ := printTokens_ok hlt
  have hc : ∃ c c', (if o.showComments = true then CommentShows ws o.annot1 p.meta1 c ∧ CommentShows ws o.annot2 p.meta2 c'
        else c = [] ∧ c' = []) ∧
      (if o.showComments then Out.andThen (printComments ws p.meta1 o.annot1) (printComments ws p.meta2 o.annot2) else ([], none)) =
        (c ++ c', none) := by
    by_cases hsc : o.showComments = true
    · obtain ⟨x1, x2⟩ := hp.comments hsc
      obtain ⟨c, y1, y2⟩ := comments_ok ws p.meta1 o.annot1 x1
      obtain ⟨c', z1, z2⟩ := comments_ok ws p.meta2 o.annot2 x2
      exact ⟨c, c', by rw [if_pos hsc]; exact ⟨y1, z1⟩, by rw [if_pos hsc, y2, z2, andThen_ok]⟩
    · exact ⟨[], [], by rw [if_neg hsc]; exact ⟨rfl, rfl⟩, by rw [if_neg hsc]; rfl⟩
  obtain ⟨c, c', hc1, hc2⟩ := hc
  refine ⟨ss ++ st ++ c ++ c' ++ (t1 ++ t2 ++ t3 ++ t4).flatten, ⟨ss, st, c, c', t1 ++ t2 ++ t3 ++ t4, ⟨ls, hls, ps⟩,
    ⟨lt, hlt, pt⟩, hc1, ?_, rfl⟩, fun pairs rest => ?_⟩
  · rw [e5]
    exact List.rel_append (List.rel_append (List.rel_append g1 g2) g3) g4
  · unfold printPair
    rw [if_pos hsame, hq]
    have d2 : ∀ rest, printSection num repr p "Relation different".toList o1.1 q.relDiff rest =
      Out.andThen (t2.flatten, none) (rest o2.1) := k2
    have d3 : ∀ rest, printSection num repr p (o.annot1 ++ " only".toList) o2.1 q.uniq1 rest =
      Out.andThen (t3.flatten, none) (rest o3.1) := k3
    have d4 : ∀ rest, printSection num repr p (o.annot2 ++ " only".toList) o3.1 q.uniq2 rest =
      Out.andThen (t4.flatten, none) (rest o4.1) := k4
    generalize "Relation different".toList = w2 at d2 ⊢
    generalize o.annot1 ++ " only".toList = w3 at d3 ⊢
    generalize o.annot2 ++ " only".toList = w4 at d4 ⊢
    generalize "Identical".toList = w1 at k1 ⊢
    simp only [after, header_silent, qs, qt, hc2, k1, d2, d3, d4, andThen_ok, List.nil_append, List.append_assoc,
      List.flatten_append]

/-- All graph pairs. -/
theorem pairs_print (num : String → Option Int) (ws : Char → Bool) (repr : List String → Text) (o : Opts) (relations : List String) :
    ∀ (ps : List Texts) (s s' : Nat × List (List (Title × List Entry))) (pairs : Nat),
    Py.forIn (ps.map Texts.both) s (diffPair num o.wordsOnly o.showIdent relations) = .ok s' →
    ∃ out, s'.2 = s.2 ++ out ∧ (List.Forall₂ (Complete o.showComments) ps out → List.Forall₂ Simple ps out → ∃ ts,
      List.Forall₂ (fun x t => PairShows ws o.annot1 o.annot2 o.showComments x.1 x.2 t) (ps.zip out) ts ∧
      printPairs num ws repr o relations ps pairs s.1 = (ts.flatten, none))
  | [], s, s', pairs, h => by
    simp only [List.map_nil, Py.forIn, Except.ok.injEq] at h
    subst h
    exact ⟨[], by simp, fun _ _ => ⟨[], .nil, rfl⟩⟩
  | p :: ps, s, s', pairs, h => by
    rw [List.map_cons] at h
    unfold Py.forIn at h
    rcases hd : diffPair num o.wordsOnly o.showIdent relations p.both s with er | s1
    · rw [hd] at h; cases h
    rw [hd] at h
    obtain ⟨secs, e1, f1⟩ := pair_print num ws repr o relations p s s1 hd
    obtain ⟨out, e2, f2⟩ := pairs_print num ws repr o relations ps s1 s' (pairs + 1) h
    refine ⟨secs :: out, by rw [e2, e1]; simp, fun hp hs => ?_⟩
    rw [List.forall₂_cons] at hp hs
    · obtain ⟨t, k1, k2⟩ := f1 hp.1 hs.1
      obtain ⟨ts, k3, k4⟩ := f2 hp.2 hs.2
      refine ⟨t :: ts, .cons k1 k3, ?_⟩
      simp only [printPairs, k2, k4, andThen_ok, List.flatten_cons]

/-! ### How a report ends -/

/-- The output is complete exactly if the condition holds, and otherwise ends with a UnicodeError. -/
def Ends (o : Out) (P : Prop) : Prop := (P → o.2 = none) ∧ (¬ P → o.2 = some .unicodeError)

theorem Ends.andThen {a b : Out} {P Q : Prop} (h1 : Ends a P) (h2 : Ends b Q) : Ends (a.andThen b) (P ∧ Q) := by
  obtain ⟨t, e⟩ := a
  constructor
  · rintro ⟨p, q⟩
    have := h1.1 p
    dsimp only at this
    subst this
    exact h2.1 q
  · intro hn
    by_cases p : P
    · have := h1.1 p
      dsimp only at this
      subst this
      exact h2.2 fun q => hn ⟨p, q⟩
    · have := h1.2 p
      dsimp only at this
      subst this
      rfl

theorem Ends.congr {o : Out} {P Q : Prop} (h : Ends o P) (e : P ↔ Q) : Ends o Q :=
  ⟨fun q => h.1 (e.2 q), fun q => h.2 fun p => q (e.1 p)⟩

theorem Ends.done (t : Text) : Ends (t, none) True := ⟨fun _ => rfl, fun h => absurd trivial h⟩

theorem strRel_error {r : Option String} : (∃ t, strRel r = .ok t) ∧ (∀ x, r = some x → Ascii x) ∨
    strRel r = .error .unicodeError ∧ ¬ ∀ x, r = some x → Ascii x := by
  cases r with
  | none => exact Or.inl ⟨⟨_, rfl⟩, by simp⟩
  | some x =>
    by_cases h : Ascii x
    · exact Or.inl ⟨⟨x.toList, by simp only [strRel, (ascii_iff x).2 h, if_true]⟩, by simpa using h⟩
    · refine Or.inr ⟨?_, fun hh => h (hh x rfl)⟩
      have := h
      rw [← ascii_iff] at this
      simp only [strRel, this, if_false, Bool.false_eq_true]

theorem describes_unique {g : DG String} {n : String} {x y : Node} (h : Describes g n x) (h' : Describes g n y) : x = y := by
  obtain ⟨a, h0, h1, h2, h3, h4⟩ := h
  obtain ⟨a', k0, k1, k2, k3, k4⟩ := h'
  rw [h0, Option.some.injEq] at k0
  subst k0
  rw [h1] at k1; rw [h2] at k2; rw [h3] at k3; rw [h4] at k4
  simp only [Option.some.injEq, Val.str.injEq, Val.toks.injEq] at k1 k2 k3 k4
  cases x; cases y
  simp_all

theorem entry_ends (repr : List String → Text) {p : Texts} {k : Nat} {n : Nodes} {r1 r2 : Option String}
    (h1 : GraphPair.getAlign p.both.first n.1 n.2 = .ok r1) (h2 : GraphPair.getAlign p.both.second n.1 n.2 = .ok r2)
    (hx : ∃ x, Describes p.source n.1 x) (hy : ∃ y, Describes p.target n.2 y) :
    Ends (printEntry repr p k n) (Plain p.source ⟨k, n, r1, r2⟩) := by
  obtain ⟨x, hx⟩ := hx
  obtain ⟨y, hy⟩ := hy
  unfold printEntry
  simp only [h1, h2, bind, Except.bind]
  rcases strRel_error (r := r1) with ⟨⟨a, ha⟩, ha'⟩ | ⟨ha, ha'⟩
  swap
  · rw [ha]
    exact ⟨fun hp => absurd (fun z hz => hp.2 z (Or.inl hz)) ha', fun _ => rfl⟩
  rcases strRel_error (r := r2) with ⟨⟨b, hb⟩, hb'⟩ | ⟨hb, hb'⟩
  swap
  · rw [ha, hb]
    exact ⟨fun hp => absurd (fun z hz => hp.2 z (Or.inr hz)) hb', fun _ => rfl⟩
  rw [ha, hb]
  simp only [after]
  by_cases hl : Ascii x.label
  · rw [sourceLine_ok repr hx hl]
    simp only [targetLine_ok repr hy, put, andThen_ok]
    refine ⟨fun _ => rfl, fun hn => absurd ⟨fun z hz => ?_, fun r hr => ?_⟩ hn⟩
    · rw [describes_unique hz hx]; exact hl
    · rcases hr with hr | hr
      · exact ha' r hr
      · exact hb' r hr
  · rw [sourceLine_error repr hx hl]
    exact ⟨fun hp => absurd (hp.1 x hx) hl, fun _ => rfl⟩

theorem entries_end (repr : List String → Text) (p : Texts) : ∀ (l : List Nodes) (c c' : Nat) (acc ents : List Entry),
    Py.forIn l (c, acc) (fun n s => do
      let rel1 ← GraphPair.getAlign p.both.first n.1 n.2
      let rel2 ← GraphPair.getAlign p.both.second n.1 n.2
      return (s.1 + 1, s.2 ++ [⟨s.1 + 1, n, rel1, rel2⟩])) = .ok (c', ents) →
    ∃ es, ents = acc ++ es ∧ c' = c + l.length ∧ (es = [] ↔ l = []) ∧ ((∀ e ∈ es, Described p.source p.target e) →
      Ends (printEntries repr p c l) (∀ e ∈ es, Plain p.source e))
  | [], c, c', acc, ents, h => by
    simp only [Py.forIn, Except.ok.injEq, Prod.mk.injEq] at h
    obtain ⟨rfl, rfl⟩ := h
    exact ⟨[], by simp, by simp, by simp, fun _ => (Ends.done []).congr (by simp)⟩
  | n :: l, c, c', acc, ents, h => by
    unfold Py.forIn at h
    rcases h1 : GraphPair.getAlign p.both.first n.1 n.2 with er | r1
    · simp [h1, bind, Except.bind] at h
    rcases h2 : GraphPair.getAlign p.both.second n.1 n.2 with er | r2
    · simp [h1, h2, bind, Except.bind] at h
    simp only [h1, h2, bind, Except.bind, pure, Except.pure] at h
    obtain ⟨es, e1, e2, -, e3⟩ := entries_end repr p l (c + 1) c' (acc ++ [⟨c + 1, n, r1, r2⟩]) ents h
    refine ⟨⟨c + 1, n, r1, r2⟩ :: es, by simp [e1], by rw [e2, List.length_cons]; omega, by simp, fun hs => ?_⟩
    have hd := hs ⟨c + 1, n, r1, r2⟩ (by simp)
    exact ((entry_ends repr h1 h2 hd.1 hd.2).andThen (e3 fun e he => hs e (by simp [he]))).congr
      (by rw [List.forall_mem_cons])

theorem section_ends (num : String → Option Int) (repr : List String → Text) (title : Text) (p : Texts) (t : Title) (l : List Nodes)
    (s s' : Nat × List (Title × List Entry)) (h : section' num p.both t l s = .ok s') :
    ∃ new, s'.2 = s.2 ++ new ∧ ((∀ x ∈ new, ∀ e ∈ x.2, Described p.source p.target e) →
      ∀ (rest : Nat → Out) (Q : Prop), Ends (rest s'.1) Q →
        Ends (printSection num repr p title s.1 l rest) ((∀ x ∈ new, ∀ e ∈ x.2, Plain p.source e) ∧ Q)) := by
  unfold section' at h
  rcases hl : sortNodes num l with er | l'
  · simp [hl, bind, Except.bind] at h
  rcases hp : PgcDiff.printAlignments p.both s.1 l' with er | ⟨c', ents⟩
  · simp [hl, hp, bind, Except.bind] at h
  simp only [hl, hp, bind, Except.bind, pure, Except.pure, Except.ok.injEq] at h
  subst h
  obtain ⟨es, e1, e2, e3, e4⟩ := entries_end repr p l' s.1 c' [] ents hp
  rw [List.nil_append] at e1
  subst e1
  by_cases hn : l' = []
  · refine ⟨[], by simp [hn], fun _ rest Q hQ => ?_⟩
    simp only [printSection, hl, after, printAlignments, hn, if_true, andThen_ok, List.nil_append, List.length_nil,
      Nat.add_zero]
    subst hn
    simp only [List.length_nil, Nat.add_zero] at e2
    rw [← e2]
    exact hQ.congr (by simp)
  · refine ⟨[(t, ents)], by simp [hn], fun hs rest Q hQ => ?_⟩
    simp only [printSection, hl, after, printAlignments, if_neg hn, header_eq]
    rw [← e2]
    have hE := e4 fun e he => hs (t, ents) (by simp) e he
    exact ((((Ends.done (head title)).andThen hE).andThen hQ)).congr (by simp)

/-- How the report of a graph pair ends. -/
theorem pair_ends (num : String → Option Int) (ws : Char → Bool) (repr : List String → Text) (o : Opts) (relations : List String)
    (p : Texts) (s s' : Nat × List (List (Title × List Entry)))
    (h : diffPair num o.wordsOnly o.showIdent relations p.both s = .ok s') :
    ∃ secs, s'.2 = s.2 ++ [secs] ∧ (Complete o.showComments p secs → ∀ pairs (rest : Nat → Out) (Q : Prop), Ends (rest s'.1) Q →
      Ends (printPair num ws repr o relations p pairs s.1 rest) ((∀ x ∈ secs, ∀ e ∈ x.2, Plain p.source e) ∧ Q)) := by
  unfold diffPair at h
  by_cases hsame : p.both.same = true
  swap
  · rw [if_neg hsame] at h; cases h
  rw [if_pos hsame] at h
  rcases hq : parts o.wordsOnly relations p.both with er | q
  · simp [hq, bind, Except.bind] at h
  rcases h1 : (if o.showIdent = true then section' num p.both .identical q.ident (s.1, []) else pure (s.1, []) :
      Py (Nat × List (Title × List Entry))) with er | o1
  · simp only [hq, h1, bind, Except.bind] at h; cases h
  rcases h2 : section' num p.both .relationDifferent q.relDiff o1 with er | o2
  · simp only [hq, h1, h2, bind, Except.bind] at h; cases h
  rcases h3 : section' num p.both .only1 q.uniq1 o2 with er | o3
  · simp only [hq, h1, h2, h3, bind, Except.bind] at h; cases h
  rcases h4 : section' num p.both .only2 q.uniq2 o3 with er | o4
  · simp only [hq, h1, h2, h3, h4, bind, Except.bind] at h; cases h
  simp only [hq, h1, h2, h3, h4, bind, Except.bind] at h
  injection h with h
  subst h
  have s1 : ∃ new, o1.2 = new ∧ ((∀ x ∈ new, ∀ e ∈ x.2, Described p.source p.target e) → ∀ (rest : Nat → Out) (Q : Prop),
      Ends (rest o1.1) Q →
        Ends ((if o.showIdent then printSection num repr p "Identical".toList s.1 q.ident else fun f => f s.1) rest)
          ((∀ x ∈ new, ∀ e ∈ x.2, Plain p.source e) ∧ Q)) := by
    by_cases hi : o.showIdent = true
    · rw [if_pos hi] at h1
      obtain ⟨new, e, f⟩ := section_ends num repr "Identical".toList p .identical q.ident (s.1, []) o1 h1
      refine ⟨new, by simpa using e, fun hs rest Q hQ => ?_⟩
      rw [if_pos hi]
      exact f hs rest Q hQ
    · rw [if_neg hi] at h1
      cases h1
      exact ⟨[], rfl, fun _ rest Q hQ => by rw [if_neg hi]; exact hQ.congr (by simp)⟩
  obtain ⟨n1, e1, f1⟩ := s1
  obtain ⟨n2, e2, f2⟩ := section_ends num repr "Relation different".toList p .relationDifferent q.relDiff o1 o2 h2
  obtain ⟨n3, e3, f3⟩ := section_ends num repr (o.annot1 ++ " only".toList) p .only1 q.uniq1 o2 o3 h3
  obtain ⟨n4, e4, f4⟩ := section_ends num repr (o.annot2 ++ " only".toList) p .only2 q.uniq2 o3 o4 h4
  have e5 : o4.2 = n1 ++ n2 ++ n3 ++ n4 := by rw [e4, e3, e2, e1]
  refine ⟨o4.2, rfl, fun hp pairs rest Q hQ => ?_⟩
  have hent := hp.entries
  rw [e5] at hent ⊢
  simp only [List.mem_append] at hent
  obtain ⟨ls, hls⟩ := hp.source
  obtain ⟨lt, hlt⟩ := hp.target
  obtain ⟨ss, -, qs⟩ := printTokens_ok hls
  obtain ⟨st, -, qt⟩ := printTokens_ok hlt
  have hc : ∃ c, (if o.showComments then Out.andThen (printComments ws p.meta1 o.annot1) (printComments ws p.meta2 o.annot2)
      else ([], none)) = (c, none) := by
    by_cases hsc : o.showComments = true
    · obtain ⟨x1, x2⟩ := hp.comments hsc
      obtain ⟨c, y1, y2⟩ := comments_ok ws p.meta1 o.annot1 x1
      obtain ⟨c', z1, z2⟩ := comments_ok ws p.meta2 o.annot2 x2
      exact ⟨c ++ c', by rw [if_pos hsc, y2, z2, andThen_ok]⟩
    · exact ⟨[], by rw [if_neg hsc]⟩
  obtain ⟨c, hc⟩ := hc
  unfold printPair
  rw [if_pos hsame, hq]
  simp only [after, header_silent, qs, qt, hc]
  refine Ends.congr (Ends.andThen (Ends.done []) (Ends.andThen (Ends.done ss) (Ends.andThen (Ends.done st) (Ends.andThen (Ends.done c)
    (f1 (fun x hx => hent x (by simp [hx])) _ _ (f2 (fun x hx => hent x (by simp [hx])) _ _
      (f3 (fun x hx => hent x (by simp [hx])) _ _ (f4 (fun x hx => hent x (by simp [hx])) _ _ hQ)))))))) ?_
  simp only [true_and, List.mem_append, or_imp, forall_and]
  tauto

/-- How a report ends. -/
theorem pairs_end (num : String → Option Int) (ws : Char → Bool) (repr : List String → Text) (o : Opts) (relations : List String) :
    ∀ (ps : List Texts) (s s' : Nat × List (List (Title × List Entry))) (pairs : Nat),
    Py.forIn (ps.map Texts.both) s (diffPair num o.wordsOnly o.showIdent relations) = .ok s' →
    ∃ out, s'.2 = s.2 ++ out ∧ (List.Forall₂ (Complete o.showComments) ps out →
      Ends (printPairs num ws repr o relations ps pairs s.1)
        (List.Forall₂ (fun p secs => ∀ x ∈ secs, ∀ e ∈ x.2, Plain p.source e) ps out))
  | [], s, s', pairs, h => by
    simp only [List.map_nil, Py.forIn, Except.ok.injEq] at h
    subst h
    exact ⟨[], by simp, fun _ => (Ends.done []).congr (by simp)⟩
  | p :: ps, s, s', pairs, h => by
    rw [List.map_cons] at h
    unfold Py.forIn at h
    rcases hd : diffPair num o.wordsOnly o.showIdent relations p.both s with er | s1
    · rw [hd] at h; cases h
    rw [hd] at h
    obtain ⟨secs, e1, f1⟩ := pair_ends num ws repr o relations p s s1 hd
    obtain ⟨out, e2, f2⟩ := pairs_end num ws repr o relations ps s1 s' (pairs + 1) h
    refine ⟨secs :: out, by rw [e2, e1]; simp, fun hp => ?_⟩
    cases hp with
    | cons hp hps =>
      simp only [printPairs]
      exact (f1 hp _ _ _ (f2 hps)).congr (by rw [List.forall₂_cons])

end Verif.DiffPrint
