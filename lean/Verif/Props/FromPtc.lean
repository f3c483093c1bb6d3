import Verif.Model.FromPtc
import Verif.Spec.PgcCp
import Verif.Lemmas.PgcZip
import Verif.Props.Creation
import Verif.Props.RelPath
import Verif.Props.Pgc
import Verif.Props.PgcCp

/-! Property C74 (bin/pgc_from_ptc.py). -/
namespace Verif.Props.FromPtc
open Verif Verif.Etree Verif.Pgc Verif.PgcCp Verif.FromPtc Verif.Spec Verif.Spec.PgcCp

variable {β κ γ : Type}

/-- The triples to be handled. -/
def triples (texts sources targets : List Text) : List Triple := texts.zip (sources.zip targets)

/-- No output is one of these files. -/
def NoOutput (ps : Paths) (l : List Triple) (n : Nat) : Prop := ∀ y ∈ l, ps.place (outName y.1) ≠ n

/-! ### The script -/

/-- Nothing is done if the numbers of text corpora and graph banks differ. -/
theorem numbers (ps : Paths) (cd : Codec β κ) (create : Disk β → Triple → Py κ) (disk : Disk β) (texts sources targets : List Text) :
    main ps cd create disk texts sources targets = none ↔ ¬ (texts.length = sources.length ∧ texts.length = targets.length) := by
  unfold main
  split
  · rename_i h; simp [h]
  · rename_i h
    split
    · rename_i h'; simp [h']
    · rename_i h'; exact iff_of_false (by simp) (not_not.2 ⟨not_not.1 h, not_not.1 h'⟩)

/-- The i-th corpus is made of the i-th text corpus and the i-th graph banks. -/
theorem in_order (texts sources targets : List Text) (i : Nat) :
    (triples texts sources targets)[i]? =
      match texts[i]?, sources[i]?, targets[i]? with
      | some a, some b, some c => some (a, b, c)
      | _, _, _ => none := by
  unfold triples
  simp only [List.zip, List.getElem?_zipWith]
  rcases texts[i]? with _ | a <;> rcases sources[i]? with _ | b <;> rcases targets[i]? with _ | c <;> rfl

private theorem writeTarget_other (ps : Paths) (cd : Codec β κ) (disk : Disk β) (x : κ) (t : Text) {n : Nat} (h : ps.place t ≠ n) :
    (writeTarget ps cd disk x t).1 n = disk n := by
  unfold writeTarget
  split
  · rfl
  · split
    · rfl
    · exact if_neg (fun e => h e.symm)

private theorem makeAll_other (ps : Paths) (cd : Codec β κ) (create : Disk β → Triple → Py κ) (l : List Triple) (n : Nat)
    (h : NoOutput ps l n) : ∀ disk, (makeAll ps cd create disk l).1 n = disk n := by
  induction l with
  | nil => intro disk; rfl
  | cons x l ih =>
    intro disk
    rw [makeAll]
    split
    · rfl
    · rename_i new _
      have hw := writeTarget_other ps cd disk new (outName x.1) (h x (by simp))
      have ih := ih fun y hy => h y (List.mem_cons_of_mem _ hy)
      split
      · rename_i d e hd; rw [hd] at hw; exact hw
      · rename_i d hd; rw [hd] at hw; rw [ih]; exact hw

/-- Only the files of the new corpora are changed, whatever happens. -/
theorem only_outputs (ps : Paths) (cd : Codec β κ) (create : Disk β → Triple → Py κ) (disk : Disk β) (texts sources targets : List Text)
    {r : Disk β × Option Err} (h : main ps cd create disk texts sources targets = some r) (n : Nat)
    (hn : ∀ t ∈ texts, ps.place (outName t) ≠ n) : r.1 n = disk n := by
  unfold main at h
  split at h
  · cases h
  · split at h
    · cases h
    · rw [← Option.some.inj h]
      exact makeAll_other ps cd create _ n (fun y hy => hn y.1 (List.of_mem_zip (a := y.1) (b := y.2) hy).1) disk

/-- The corpus for the triple can be made, as long as only outputs have been changed, and written. -/
def Makeable (ps : Paths) (cd : Codec β κ) (create : Disk β → Triple → Py κ) (disk : Disk β) (l : List Triple) (x : Triple)
    (new : κ) (c : β) : Prop :=
  (∀ disk', (∀ n, NoOutput ps l n → disk' n = disk n) → create disk' x = .ok new) ∧
    cd.write new (outName x.1) = .ok (c, none) ∧ Open ps (outName x.1)

private theorem makeAll_good (ps : Paths) (cd : Codec β κ) (create : Disk β → Triple → Py κ) (disk0 : Disk β) (all : List Triple)
    (f : Triple → κ) (g : Triple → β) (l : List Triple) (hsub : ∀ x ∈ l, x ∈ all)
    (h : ∀ x ∈ l, Makeable ps cd create disk0 all x (f x) (g x)) :
    ∀ disk, (∀ n, NoOutput ps all n → disk n = disk0 n) → (makeAll ps cd create disk l).2 = none ∧
      ∀ l1 x l2, l = l1 ++ x :: l2 → NoOutput ps l2 (ps.place (outName x.1)) →
        (makeAll ps cd create disk l).1 (ps.place (outName x.1)) = some (g x) := by
  induction l with
  | nil => intro disk _; exact ⟨rfl, fun l1 x l2 e => absurd e (by simp)⟩
  | cons y l ih =>
    intro disk hd
    obtain ⟨h1, h2, h3⟩ := h y (by simp)
    have hw : writeTarget ps cd disk (f y) (outName y.1) =
        (fun n => if n = ps.place (outName y.1) then some (g y) else disk n, none) := by
      unfold writeTarget; rw [h2]; simp [h3.1, h3.2]
    have e : makeAll ps cd create disk (y :: l) =
        makeAll ps cd create (fun n => if n = ps.place (outName y.1) then some (g y) else disk n) l := by
      rw [makeAll, h1 disk hd]
      dsimp only
      rw [hw]
    obtain ⟨i1, i2⟩ := ih (fun x hx => hsub x (List.mem_cons_of_mem _ hx)) (fun x hx => h x (List.mem_cons_of_mem _ hx))
      (fun n => if n = ps.place (outName y.1) then some (g y) else disk n) (by
        intro n hn
        rw [if_neg (fun e => hn y (hsub y (by simp)) e.symm)]
        exact hd n hn)
    refine ⟨by rw [e]; exact i1, ?_⟩
    intro l1 x l2 hl hx
    rw [e]
    cases l1 with
    | nil =>
      simp only [List.nil_append, List.cons.injEq] at hl
      obtain ⟨rfl, rfl⟩ := hl
      rw [makeAll_other ps cd create _ _ hx, if_pos rfl]
    | cons z l1 =>
      simp only [List.cons_append, List.cons.injEq] at hl
      exact i2 l1 x l2 hl.2 hx

/-- If all corpora can be made, independently of the outputs, and written, then the run succeeds and every output holds the
corpus for the last text corpus with that output. -/
theorem all_made (ps : Paths) (cd : Codec β κ) (create : Disk β → Triple → Py κ) (disk : Disk β) (texts sources targets : List Text)
    (hs : texts.length = sources.length) (ht : texts.length = targets.length) (f : Triple → κ) (g : Triple → β)
    (h : ∀ x ∈ triples texts sources targets, Makeable ps cd create disk (triples texts sources targets) x (f x) (g x)) :
    ∃ disk', main ps cd create disk texts sources targets = some (disk', none) ∧
      ∀ l1 x l2, triples texts sources targets = l1 ++ x :: l2 → NoOutput ps l2 (ps.place (outName x.1)) →
        disk' (ps.place (outName x.1)) = some (g x) := by
  obtain ⟨h1, h2⟩ := makeAll_good ps cd create disk _ f g _ (fun x hx => hx) h disk (fun n _ => rfl)
  refine ⟨_, ?_, h2⟩
  unfold main
  rw [if_neg (not_not.2 hs), if_neg (not_not.2 ht)]
  unfold triples at h1
  rw [← h1]
  rfl

/-- The run stops at the first corpus that cannot be made; those before it stay, as if the run had ended there. -/
theorem stops (ps : Paths) (cd : Codec β κ) (create : Disk β → Triple → Py κ) (disk disk' : Disk β) (l1 : List Triple) (x : Triple)
    (l2 : List Triple) (e : Err) (h : makeAll ps cd create disk l1 = (disk', none)) (hx : create disk' x = .error e) :
    makeAll ps cd create disk (l1 ++ x :: l2) = (disk', some e) := by
  induction l1 generalizing disk with
  | nil =>
    simp only [makeAll, Prod.mk.injEq, and_true] at h
    subst h
    rw [List.nil_append, makeAll, hx]
  | cons y l1 ih =>
    rw [List.cons_append]
    simp only [makeAll] at h ⊢
    rcases hc : create disk y with e' | new
    · rw [hc] at h; cases h
    · rw [hc] at h
      dsimp only at h ⊢
      rcases hd : writeTarget ps cd disk new (outName y.1) with ⟨d, _ | e'⟩
      · rw [hd] at h; exact ih d h
      · rw [hd] at h; cases h

/-- The name of the output: the base name of the text corpus with another extension, in the working directory. -/
theorem name_of (dir n ext : Text) (hn : '/' ∉ n) (hd : ¬ ∀ c ∈ n, c = '.') (he : '/' ∉ ext ∧ '.' ∉ ext)
    (hdir : dir = [] ∨ ∃ d, dir = d ++ ['/']) : outName (dir ++ n ++ '.' :: ext) = n ++ ".pgc".toList := by
  have hb : PosixPath.basename (dir ++ n ++ '.' :: ext) = n ++ '.' :: ext := by
    have hs : '/' ∉ n ++ '.' :: ext := by simp [hn, he.1]
    rw [List.append_assoc]
    refine PosixPath.basename_append hs ?_
    rcases hdir with rfl | ⟨d, rfl⟩
    · exact Or.inl rfl
    · exact Or.inr (by simp)
  have hstem : PgcZip.stem (n ++ '.' :: ext) = n := by
    unfold PgcZip.stem
    have : ((n ++ '.' :: ext).reverse.dropWhile (· ≠ '.')).tail.reverse = n := by
      rw [List.reverse_append, List.reverse_cons, List.append_assoc, List.dropWhile_append_of_pos (by
        intro c hc
        simp only [decide_not, Bool.not_eq_true', decide_eq_false_iff_not]
        rintro rfl
        exact he.2 (List.mem_reverse.1 hc))]
      simp
    rw [this]
    dsimp only
    have : n.all (· = '.') = false := by
      rw [Bool.eq_false_iff]
      intro h
      exact hd (by simpa using h)
    rw [this]
    rfl
  unfold outName
  rw [hb, hstem]

/-- A text corpus in the working directory whose name ends in ".pgc" is replaced by the graph corpus made of it. -/
theorem own_input (n : Text) (hn : '/' ∉ n) (hd : ¬ ∀ c ∈ n, c = '.') : outName (n ++ ".pgc".toList) = n ++ ".pgc".toList := by
  have := name_of [] n "pgc".toList hn hd (by decide) (Or.inl rfl)
  exact this

/-! ### The corpora -/

/-- What is needed for a new corpus to be read again: graphs have ids, formats are given, the banks exist (or are one file),
no name on their paths begins or ends with white space, and neither does a relation. -/
structure Sound (fs : RelPath.FS) (stat : String → Option Nat) (ws : Char → Bool) (relations : List String) (n : New γ) : Prop where
  ids : ∀ p ∈ n.pairs, p.sourceId ≠ "" ∧ p.targetId ≠ ""
  format : n.formatS ≠ "" ∧ n.formatT ≠ ""
  banks : n.source = n.target ∨ (stat (String.ofList n.source)).isSome ∧ (stat (String.ofList n.target)).isSome
  source : ∃ l, n.source = Spec.RelPath.path l ∧ Spec.RelPath.Place fs.link l ∧ Spec.RelPath.NoBlankEnds ws l
  target : ∃ l, n.target = Spec.RelPath.path l ∧ Spec.RelPath.Place fs.link l ∧ Spec.RelPath.NoBlankEnds ws l
  relations : ∀ r ∈ relations, strip ws r.toList = r.toList ∧ r ≠ ""

/-- The bank of a graph pair that was read is for this file. -/
def BankAt (stat : String → Option Nat) (n : New γ) (s : Pgc.State γ) (id : String) (path : Text) : Prop :=
  ∃ bk, s.banks.get? (some id) = some bk ∧ SameFile stat (String.ofList path) (String.ofList bk.path) ∧
    (bk.path = n.source ∧ bk.format = some n.formatS ∨ bk.path = n.target ∧ bk.format = some n.formatT)

/-- The graph pair read is the one that was made. -/
structure Read (stat : String → Option Nat) (n : New γ) (s : Pgc.State γ) (p : Creation.Pair γ) (pp : PPair γ) : Prop where
  ids : pp.sourceId = p.sourceId ∧ pp.targetId = p.targetId
  source : BankAt stat n s pp.sourceBank n.source
  target : BankAt stat n s pp.targetBank n.target
  unaligned : ∀ x y, GraphPair.getAlign pp.align x y = .ok none

/-- A new corpus is written, and read again from any working directory, by any path that leads to the directory of its file. -/
theorem new_read {xml : Xml β} (hxml : Lawful xml) (hnl : xml.ws '\n' = true) (hsp : xml.ws ' ' = true) {fs : RelPath.FS}
    {cwd cwd' : List Text} (hcwd : Spec.RelPath.Place fs.link cwd) (hcwd' : Spec.RelPath.Place fs.link cwd')
    {stat : String → Option Nat} {readAll : Text → Option String → Py (AD String γ)} {fn inf d : Text}
    (hd : RelPath.realpath fs cwd (PosixPath.dirname fn) = some d) (hd' : RelPath.realpath fs cwd' (PosixPath.dirname inf) = some d)
    {relations : List String} {n : New γ} (hn : Sound fs stat xml.ws relations n) :
    ∃ c s, writeNew xml fs cwd stat relations n fn = .ok (c, none) ∧ readAt xml fs cwd' readAll inf c = .ok s ∧
      s.rels.Perm relations ∧ s.rels.Pairwise (· ≤ ·) ∧ s.meta = none ∧ List.Forall₂ (Read stat n s) n.pairs s.pairs := by
  have hgp : ∀ k, (FromPtc.world relations n).gp k = ⟨0, 1, ((n.pairs[k]?).map fun p => p.sourceId).getD "",
      ((n.pairs[k]?).map fun p => p.targetId).getD "", ⟨k, .mk "graph_meta_data" [] none none []⟩, Graph.empty⟩ := by
    intro k
    unfold FromPtc.world
    dsimp only
    rcases n.pairs[k]? with _ | p <;> rfl
  have hmem : ∀ k ∈ (FromPtc.corpus n).pairs, k < n.pairs.length := fun k hk => List.mem_range.1 hk
  have huse : ∀ b, Corpus.Uses (FromPtc.world relations n) (FromPtc.corpus n).pairs b → b = 0 ∨ b = 1 := by
    rintro b ⟨k, hk, h⟩
    rw [hgp] at h
    rcases h with h | h
    · exact Or.inl h
    · exact Or.inr h
  have hlead : ∀ p : Text, (∃ l, p = Spec.RelPath.path l ∧ Spec.RelPath.Place fs.link l ∧ Spec.RelPath.NoBlankEnds xml.ws l) →
      strip xml.ws ((RelPath.bankText fs cwd false fn (String.ofList p).toList).getD []) ≠ [] ∧
      (fun x => (RelPath.bankPath fs cwd' inf x).getD x)
        (strip xml.ws ((RelPath.bankText fs cwd false fn (String.ofList p).toList).getD [])) = (String.ofList p).toList := by
    rintro p ⟨l, hl, hl1, hl2⟩
    exact Props.RelPath.files_lead_back (γ := γ) (fs := fs) (cwd := cwd) (cwd' := cwd')
      (env := ⟨xml.ws, fun x => (RelPath.bankPath fs cwd' inf x).getD x, readAll, fun p f _ => readAll p f⟩) (outf := fn)
      (inf := inf) (d := d) (abs := false) hxml.dot hxml.slash hcwd hcwd' hd hd'
      (by intro x y h; dsimp only; rw [h]; rfl)
      (shown := fun p => (RelPath.bankText fs cwd false fn p.toList).getD [])
      (by intro p; unfold RelPath.bankText; rw [hd]; rfl)
      (p := String.ofList p) (l := l) (by rw [String.toList_ofList]; exact hl) hl1 hl2
  have hw : Props.Pgc.Writable stat
      (⟨xml.ws, fun x => (RelPath.bankPath fs cwd' inf x).getD x, readAll, fun p f _ => readAll p f⟩ : Env γ)
      (FromPtc.world relations n) (FromPtc.formats n) (fun p => (RelPath.bankText fs cwd false fn p.toList).getD []) (FromPtc.corpus n) := by
    refine ⟨?_, ?_, ?_, ?_, ?_, ?_, ?_, ?_⟩
    · intro a b ha hb
      have hb1 := hn.banks
      rcases huse a ha with rfl | rfl <;> rcases huse b hb with rfl | rfl
      · exact Or.inl rfl
      · rcases hb1 with h | h
        · exact Or.inl (congrArg String.ofList h)
        · exact Or.inr h
      · rcases hb1 with h | h
        · exact Or.inl (congrArg String.ofList h.symm)
        · exact Or.inr h.symm
      · exact Or.inl rfl
    · intro p _
      exact ⟨[], [], by rw [hgp]; rfl⟩
    · intro k hk
      have h1 := hmem k hk
      rw [hgp, List.getElem?_eq_getElem h1]
      exact hn.ids _ (List.getElem_mem h1)
    · intro b hb
      rcases huse b hb with rfl | rfl
      · exact ⟨hn.format.1, hlead _ hn.source⟩
      · exact ⟨hn.format.2, hlead _ hn.target⟩
    · change (relations.mergeSort fun s t => decide (s ≤ t)).Pairwise (· ≤ ·)
      have := List.pairwise_mergeSort (le := fun s t : String => decide (s ≤ t))
        (by intro a b c h1 h2; simp only [decide_eq_true_eq] at *; exact le_trans h1 h2)
        (by intro a b; simpa using le_total a b) relations
      exact this.imp fun h => by simpa using h
    · intro r hr
      exact hn.relations r (List.mem_mergeSort.1 hr)
    · intro p _ h
      rw [hgp] at h
      exact absurd rfl h
    · intro m hm
      cases hm
  obtain ⟨t, s, h1, h2, h3⟩ := Props.Pgc.pprint_read hw hnl hsp
  refine ⟨xml.write (indent xml.ws 0 t), s, ?_, ?_, ?_, ?_, ?_, ?_⟩
  · unfold writeNew
    rw [h1]
  · unfold readAt
    rw [hxml.reread]
    dsimp only at h2 ⊢
    rw [h2]
  · rw [h3.relations]
    exact List.mergeSort_perm _ _
  · rw [h3.relations]
    exact hw.sorted
  · exact h3.metaIs
  · rw [List.forall₂_iff_get]
    have hl : (FromPtc.corpus n).pairs.length = n.pairs.length := List.length_range
    have hlen := h3.pairs.length_eq
    refine ⟨by rw [← hl]; exact hlen, ?_⟩
    intro k hk hk'
    have hP := (List.forall₂_iff_get.1 h3.pairs).2 k (by rw [hl]; exact hk) hk'
    have hg : (FromPtc.corpus n).pairs.get ⟨k, by rw [hl]; exact hk⟩ = k := by
      change (List.range n.pairs.length)[k]'_ = k
      exact List.getElem_range _
    rw [hg, hgp, List.getElem?_eq_getElem hk] at hP
    have bank : ∀ b id, b = 0 ∨ b = 1 → Spec.Pgc.BankIs stat (FromPtc.world relations n) (FromPtc.formats n) s b id →
        (∃ pp ∈ s.pairs, id = pp.sourceBank ∨ id = pp.targetBank) → BankAt stat n s id (if b = 0 then n.source else n.target) := by
      rintro b id hb ⟨bk, b', e1, e2, e3, e4⟩ _
      have e5 : bk.path = if b' = 0 then n.source else n.target := by rw [e3]; exact String.toList_ofList
      refine ⟨bk, e1, ?_, ?_⟩
      · rw [e5]; exact e2
      · by_cases h0 : b' = 0
        · exact Or.inl ⟨by rw [e5, if_pos h0], by rw [e4, FromPtc.formats, if_pos h0]⟩
        · exact Or.inr ⟨by rw [e5, if_neg h0], by rw [e4, FromPtc.formats, if_neg h0]⟩
    have hin : s.pairs.get ⟨k, hk'⟩ ∈ s.pairs := List.get_mem _ _
    refine ⟨⟨hP.sourceId, hP.targetId⟩, bank 0 _ (Or.inl rfl) hP.source ⟨_, hin, Or.inl rfl⟩,
      bank 1 _ (Or.inr rfl) hP.target ⟨_, hin, Or.inr rfl⟩, ?_⟩
    intro x y
    rcases x with _ | a
    · exact hP.only _ _ (Or.inl rfl)
    · rcases y with _ | b
      · exact hP.only _ _ (Or.inr rfl)
      · rw [hP.align]; rfl

open Classical in
/-- From the text corpus to the file: the corpus that is made, written and read again has exactly one graph pair, without
alignments, for each link between focus elements of acceptable length that differ enough, in order, with the ids of the link and
the banks that were given. -/
theorem from_text_corpus {inp : Inputs β γ} {xml : Xml β} (hxml : Lawful xml) (hnl : xml.ws '\n' = true) (hsp : xml.ws ' ' = true)
    {fs : RelPath.FS} {cwd cwd' : List Text} (hcwd : Spec.RelPath.Place fs.link cwd) (hcwd' : Spec.RelPath.Place fs.link cwd')
    {stat : String → Option Nat} {readAll : Text → Option String → Py (AD String γ)} {fn inf d : Text}
    (hd : RelPath.realpath fs cwd (PosixPath.dirname fn) = some d) (hd' : RelPath.realpath fs cwd' (PosixPath.dirname inf) = some d)
    {c : Creation.Settings} {formatS formatT : String} {relations : List String} {disk : Disk β} {x : Triple}
    {links : List HitaextDoc.Link} {tF tT : IElemTree.Tree} (hdoc : inp.document disk x.1 = .ok (links, tF, tT))
    (hF : Distinct tF) (hT : Distinct tT) {bS bT : AD String γ} (hS : inp.graphs disk x.2.1 formatS = .ok bS)
    (hB : inp.graphs disk x.2.2 formatT = .ok bT) (hb : ∀ l ∈ links, ¬ Creation.Broken c tF tT bS bT l)
    (hid : ∀ l ∈ links, l.fromId ≠ some "" ∧ l.toId ≠ some "") {lS lT : List Text}
    (hlS : RelPath.locate fs cwd x.2.1 = some lS) (hlT : RelPath.locate fs cwd x.2.2 = some lT)
    (hbS : Spec.RelPath.NoBlankEnds xml.ws lS) (hbT : Spec.RelPath.NoBlankEnds xml.ws lT)
    (hformat : formatS ≠ "" ∧ formatT ≠ "")
    (hstat : lS = lT ∨ (stat (String.ofList (Spec.RelPath.path lS))).isSome ∧ (stat (String.ofList (Spec.RelPath.path lT))).isSome)
    (hrel : ∀ r ∈ relations, strip xml.ws r.toList = r.toList ∧ r ≠ "") :
    ∃ n content s, create inp fs cwd c formatS formatT disk x = .ok n ∧
      n.source = Spec.RelPath.path lS ∧ n.target = Spec.RelPath.path lT ∧ n.formatS = formatS ∧ n.formatT = formatT ∧
      writeNew xml fs cwd stat relations n fn = .ok (content, none) ∧ readAt xml fs cwd' readAll inf content = .ok s ∧
      s.rels.Perm relations ∧ s.meta = none ∧
      List.Forall₂ (fun l pp => l.fromId = some pp.sourceId ∧ l.toId = some pp.targetId ∧
          BankAt stat n s pp.sourceBank n.source ∧ BankAt stat n s pp.targetBank n.target ∧
          ∀ y z, GraphPair.getAlign pp.align y z = .ok none)
        (links.filter fun l => decide (Admissible c tF tT l)) s.pairs := by
  obtain ⟨pairs, h1, h2⟩ := Creation.creation_exact c tF tT hF hT bS bT links hb
  have rS : RelPath.realpath fs cwd x.2.1 = some (Spec.RelPath.path lS) := by
    unfold RelPath.realpath; rw [hlS]; exact rfl
  have rT : RelPath.realpath fs cwd x.2.2 = some (Spec.RelPath.path lT) := by
    unfold RelPath.realpath; rw [hlT]; exact rfl
  have hcreate : create inp fs cwd c formatS formatT disk x =
      .ok ⟨pairs, Spec.RelPath.path lS, Spec.RelPath.path lT, formatS, formatT⟩ := by
    unfold create
    rw [hdoc]; dsimp only
    rw [hS]; dsimp only
    rw [hB]; dsimp only
    rw [h1]; dsimp only
    rw [rS, rT]; rfl
  have hids : ∀ p ∈ pairs, p.sourceId ≠ "" ∧ p.targetId ≠ "" := by
    intro p hp
    obtain ⟨i, hi, rfl⟩ := List.mem_iff_getElem.1 hp
    have := (List.forall₂_iff_get.1 h2).2 i (by rw [h2.length_eq]; exact hi) hi
    have hl := hid _ (List.mem_filter.1 (List.get_mem (links.filter fun l => decide (Admissible c tF tT l))
      ⟨i, by rw [h2.length_eq]; exact hi⟩)).1
    rw [this.1, this.2.1] at hl
    exact ⟨fun e => hl.1 (congrArg some e), fun e => hl.2 (congrArg some e)⟩
  have hsound : Sound fs stat xml.ws relations (⟨pairs, Spec.RelPath.path lS, Spec.RelPath.path lT, formatS, formatT⟩ : New γ) :=
    ⟨hids, hformat, hstat.imp (congrArg Spec.RelPath.path) id, ⟨lS, rfl, Verif.RelPath.locate_place hcwd hlS, hbS⟩,
      ⟨lT, rfl, Verif.RelPath.locate_place hcwd hlT, hbT⟩, hrel⟩
  obtain ⟨content, s, w1, w2, w3, -, w5, w6⟩ := new_read (readAll := readAll) hxml hnl hsp hcwd hcwd' hd hd' hsound
  refine ⟨_, content, s, hcreate, rfl, rfl, rfl, rfl, w1, w2, w3, w5, ?_⟩
  have : ∀ {ls : List HitaextDoc.Link} {ps : List (Creation.Pair γ)} {qs : List (PPair γ)}, List.Forall₂ (Makes bS bT) ls ps →
      List.Forall₂ (Read stat ⟨pairs, Spec.RelPath.path lS, Spec.RelPath.path lT, formatS, formatT⟩ s) ps qs →
      List.Forall₂ (fun l pp => l.fromId = some pp.sourceId ∧ l.toId = some pp.targetId ∧
          BankAt stat (⟨pairs, Spec.RelPath.path lS, Spec.RelPath.path lT, formatS, formatT⟩ : New γ) s pp.sourceBank
            (Spec.RelPath.path lS) ∧
          BankAt stat (⟨pairs, Spec.RelPath.path lS, Spec.RelPath.path lT, formatS, formatT⟩ : New γ) s pp.targetBank
            (Spec.RelPath.path lT) ∧
          ∀ y z, GraphPair.getAlign pp.align y z = .ok none) ls qs := by
    intro ls ps qs g1 g2
    induction g1 generalizing qs with
    | nil => cases g2; exact .nil
    | cons a _ ih =>
      cases g2 with
      | cons b g2 => exact .cons ⟨by rw [a.1, b.ids.1], by rw [a.2.1, b.ids.2], b.source, b.target, b.unaligned⟩ (ih g2)
  exact this h2 w6

/-! ### Cases that meet the hypotheses -/

private def samplePaths : Paths := ⟨fun p => p.length, fun _ => false, fun _ => true⟩
private def sampleCodec : Codec String String := ⟨fun _ c => .ok c, fun x _ => .ok (x, none)⟩
private def sampleCreate (disk : Disk String) (x : Triple) : Py String :=
  match disk x.1.length with
  | none => .error .osError
  | some c => .ok (c ++ "!")

/-- Two text corpora, a/one.ptc and b/three.x.ptc, become one.pgc and three.x.pgc; a third one does not exist. -/
example : (main samplePaths sampleCodec sampleCreate (fun n => if n = 9 then some "1" else if n = 14 then some "2" else none)
    ["a/one.ptc".toList, "bb/three.x.ptc".toList] [[], []] [[], []]).map (fun r => (r.1 7, r.1 11, r.1 9, r.2)) =
    some (some "1!", some "2!", some "1", none) := by decide +kernel
example : (main samplePaths sampleCodec sampleCreate (fun n => if n = 9 then some "1" else none)
    ["a/one.ptc".toList, "bb/three.x.ptc".toList] [[], []] [[], []]).map (fun r => (r.1 7, r.1 11, r.1 9, r.2)) =
    some (some "1!", none, some "1", some .osError) := by decide +kernel
example : main samplePaths sampleCodec sampleCreate (fun _ => none) ["a".toList] [[]] [] = none := by decide +kernel

/-- Two text corpora with one base name: the last one wins. -/
example : (main samplePaths sampleCodec sampleCreate (fun n => if n = 9 then some "1" else if n = 10 then some "2" else none)
    ["a/one.ptc".toList, "bb/one.ptc".toList] [[], []] [[], []]).map (fun r => (r.1 7, r.2)) = some (some "2!", none) := by
  decide +kernel

/-- A new corpus that meets the conditions. -/
example : Sound (γ := Unit) ⟨fun _ => none, 1⟩ (fun _ => some 1) (fun c => c = ' ') ["b", "a"]
    ⟨[⟨"1", "2", (), ()⟩, ⟨"1", "3", (), ()⟩], "/x/s.xml".toList, "/x/t.xml".toList, "alpino", "graphml"⟩ where
  ids := by simp
  format := by decide
  banks := Or.inr ⟨rfl, rfl⟩
  source := ⟨["x".toList, "s.xml".toList], rfl, by
      intro l1 n l2 h
      have : n ∈ ["x".toList, "s.xml".toList] := by rw [h]; simp
      simp only [List.mem_cons, List.not_mem_nil, or_false] at this
      rcases this with rfl | rfl <;> exact ⟨⟨by decide, by decide⟩, by decide, by decide, rfl⟩, by
      unfold Spec.RelPath.NoBlankEnds; simp⟩
  target := ⟨["x".toList, "t.xml".toList], rfl, by
      intro l1 n l2 h
      have : n ∈ ["x".toList, "t.xml".toList] := by rw [h]; simp
      simp only [List.mem_cons, List.not_mem_nil, or_false] at this
      rcases this with rfl | rfl <;> exact ⟨⟨by decide, by decide⟩, by decide, by decide, rfl⟩, by
      unfold Spec.RelPath.NoBlankEnds; simp⟩
  relations := by decide +kernel

private def sampleLinks : List HitaextDoc.Link := [{ fromTag := some "s", toTag := some "s", fromId := some "1", toId := some "2" }]

private def sampleInputs : Inputs (Option Elem) Char :=
  ⟨fun _ _ => .ok (sampleLinks, Creation.sampleDoc "a b" "a b c", Creation.sampleDoc "b a" "a d"), fun _ p _ =>
    .ok (if p = "s.xml".toList then [("1", 'x')] else [("2", 'y')])⟩

private def plainFS : RelPath.FS := ⟨fun _ => none, 1⟩

private theorem place_of {l : List Text} (h : ∀ n ∈ l, (n ≠ [] ∧ '/' ∉ n) ∧ n ≠ ['.'] ∧ n ≠ ['.', '.']) :
    Spec.RelPath.Place plainFS.link l := by
  intro l1 n l2 e
  have := h n (by rw [e]; simp)
  exact ⟨this.1, this.2.1, this.2.2, rfl⟩

open Classical in
/-- A text corpus with one link, two graph banks in /d and a corpus file written and read there. -/
example : ∃ (n : New Char) (content : Option Elem) (s : Pgc.State Char),
    create sampleInputs plainFS ["d".toList] Creation.sampleSettings "alpino" "alpino" (fun _ => none)
      ("c.ptc".toList, "s.xml".toList, "t.xml".toList) = .ok n ∧
    writeNew Props.PgcCp.sampleXml plainFS ["d".toList] (fun _ => some 1) ["equals"] n "c.pgc".toList = .ok (content, none) ∧
    readAt Props.PgcCp.sampleXml plainFS ["d".toList] (fun _ _ => .ok []) "c.pgc".toList content = .ok s ∧ s.pairs.length = 1 := by
  have hcwd : Spec.RelPath.Place plainFS.link ["d".toList] := place_of (by decide)
  have hnb : ∀ l : Text, l = "s.xml".toList ∨ l = "t.xml".toList → Spec.RelPath.NoBlankEnds Props.PgcCp.sampleXml.ws ["d".toList, l] := by
    rintro l (rfl | rfl) <;> unfold Spec.RelPath.NoBlankEnds <;> simp [Props.PgcCp.sampleXml]
  have hadm : Admissible Creation.sampleSettings (Creation.sampleDoc "a b" "a b c") (Creation.sampleDoc "b a" "a d") sampleLinks[0] := by
    refine ⟨⟨rfl, rfl⟩, _, _, rfl, rfl, ?_, ?_, ?_⟩ <;> decide +kernel
  obtain ⟨n, content, s, h1, -, -, -, -, h2, h3, -, -, h4⟩ := from_text_corpus (inp := sampleInputs) (disk := fun _ => none)
    (x := ("c.ptc".toList, "s.xml".toList, "t.xml".toList)) (fn := "c.pgc".toList) (inf := "c.pgc".toList) (d := "/d".toList)
    (fs := plainFS) (stat := fun _ => some 1) (readAll := fun _ _ => .ok []) (c := Creation.sampleSettings) (formatS := "alpino")
    (formatT := "alpino") (relations := ["equals"]) (bS := [("1", 'x')]) (bT := [("2", 'y')])
    (lS := ["d".toList, "s.xml".toList]) (lT := ["d".toList, "t.xml".toList])
    Props.PgcCp.sample_lawful rfl rfl hcwd hcwd (by decide +kernel) (by decide +kernel) rfl (by unfold Distinct; decide +kernel)
    (by unfold Distinct; decide +kernel) rfl rfl
    (by
      intro l hl
      simp only [sampleLinks, List.mem_singleton] at hl
      subst hl
      rintro (⟨_, h | h⟩ | ⟨_, h⟩)
      · exact absurd h (by simp [show byId (Creation.sampleDoc "a b" "a b c") Creation.sampleSettings.focusS (some "1") = some _ from rfl])
      · exact absurd h (by simp [show byId (Creation.sampleDoc "b a" "a d") Creation.sampleSettings.focusT (some "2") = some _ from rfl])
      · exact h ⟨⟨"1", "2", 'x', 'y'⟩, rfl, rfl, rfl, rfl⟩)
    (by decide) (by decide +kernel) (by decide +kernel) (hnb _ (Or.inl rfl)) (hnb _ (Or.inr rfl)) (by decide) (Or.inr ⟨rfl, rfl⟩)
    (by decide +kernel)
  refine ⟨n, content, s, h1, h2, h3, ?_⟩
  rw [← h4.length_eq]
  rw [List.filter_eq_self.mpr (by
    intro l hl
    have : l = sampleLinks[0] := List.mem_singleton.1 hl
    rw [this]
    exact decide_eq_true hadm)]
  rfl

end Verif.Props.FromPtc
