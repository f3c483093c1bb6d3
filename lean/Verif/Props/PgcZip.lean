import Verif.Lemmas.PgcZip
import Verif.Props.Pgc

/-! C69: packing corpora and their graph banks for another site, and reading them there. -/
namespace Verif.Props.PgcZip
open Verif Verif.Etree Verif.Pgc Verif.PgcZip Verif.Spec.PgcZip

variable {β γ : Type}

private theorem forall₂_right {α δ : Type} {R : α → δ → Prop} {l : List α} {m : List δ} (h : List.Forall₂ R l m) {b : δ}
    (hb : b ∈ m) : ∃ a ∈ l, R a b := by
  induction h with
  | nil => simp at hb
  | cons h1 _ ih =>
    rcases List.mem_cons.1 hb with rfl | hb
    · exact ⟨_, by simp, h1⟩
    · obtain ⟨a, ha, hr⟩ := ih hb
      exact ⟨a, by simp [ha], hr⟩

private theorem forall₂_left {α δ : Type} {R : α → δ → Prop} {l : List α} {m : List δ} (h : List.Forall₂ R l m) {a : α}
    (ha : a ∈ l) : ∃ b ∈ m, R a b := by
  induction h with
  | nil => simp at ha
  | cons h1 _ ih =>
    rcases List.mem_cons.1 ha with rfl | ha
    · exact ⟨_, by simp, h1⟩
    · obtain ⟨b, hb, hr⟩ := ih ha
      exact ⟨b, by simp [hb], hr⟩

private theorem used_bank {env : Env γ} {mode : Load} {evs : List Event} {s : State γ} (h : parse env mode evs = .ok s)
    {id : String} (hid : UsedId s id) : ∃ b, s.banks.get? (some id) = some b := by
  obtain ⟨p, hp, hp'⟩ := hid
  obtain ⟨h1, h2⟩ := Props.Pgc.pairs_as_declared h
  obtain ⟨a, ha, r1, r2, -, -⟩ := forall₂_right h1 hp
  obtain ⟨ev, hev, hev'⟩ := List.mem_filterMap.1 ha
  cases ev with
  | stop e => simp at hev'
  | start e =>
    dsimp only at hev'
    split at hev'
    · rename_i ht
      simp only [Option.some.injEq] at hev'
      obtain ⟨pre, post, rfl⟩ := List.append_of_mem hev
      obtain ⟨sb, tb, -, -, q1, q2, -, -, q3, q4⟩ := Props.Pgc.references_resolved h ht
      rw [hev'] at q1 q2
      rw [q1] at r1
      rw [q2] at r2
      cases r1
      cases r2
      have hd : Props.Pgc.Declared (pre ++ .start e :: post) (some id) := by
        rcases hp' with rfl | rfl
        · obtain ⟨x, hx, hx'⟩ := q3; exact ⟨x, by simp [hx], hx'⟩
        · obtain ⟨x, hx, hx'⟩ := q4; exact ⟨x, by simp [hx], hx'⟩
      exact Option.isSome_iff_exists.1 ((h2 _).2 hd)
    · simp at hev'

/-! ### The archive -/

/-- C69.  The archive is built corpus by corpus, in the order of their names: an entry for the corpus, and then one for each
graph bank of its graph pairs. -/
theorem archive_exact {rd : Reader β γ} {site : Site β} {ord : List String → List String} (hord : ∀ l, (ord l).Perm l)
    {zip : Text} {pats : List Text} {arch : List (Text × β)} (h : pgcZip rd site ord zip pats = .ok arch) :
    ∃ fns parts, fns.Perm (pats.flatMap site.glob) ∧ fns.Pairwise (fun x y => String.ofList x ≤ String.ofList y) ∧
      arch = parts.flatten ∧
      List.Forall₂ (fun fn part => ∃ s e ids es, readCorpus rd site false .none fn = .ok s ∧
        EntryOf site (archDir zip) fn e ∧ ids.Nodup ∧ (∀ id, id ∈ ids ↔ UsedId s id) ∧
        List.Forall₂ (fun id e => ∃ b, s.banks.get? (some id) = some b ∧ EntryOf site (archDir zip) b.path e) ids es ∧
        part = e :: es) fns parts := by
  unfold pgcZip at h
  obtain ⟨parts, h1, h2⟩ := forIn_append (f := packCorpus rd site ord (archDir zip)) (fun x acc r => packCorpus_ok) _ _ _ h
  refine ⟨multiglob site pats, parts, List.mergeSort_perm _ _, ?_, by simpa using h2, ?_⟩
  · have := List.pairwise_mergeSort (le := fun x y => decide (String.ofList x ≤ String.ofList y))
      (by intro a b c hab hbc; simp only [decide_eq_true_eq] at *; exact String.le_trans hab hbc)
      (by intro a b; have := String.le_total (String.ofList a) (String.ofList b); simpa using this) (pats.flatMap site.glob)
    unfold multiglob
    simpa using this
  · refine List.Forall₂.imp ?_ h1
    rintro fn part ⟨s, e, ess, q1, q2, q3, q4⟩
    refine ⟨s, e, ord (graphbanks s), ess.flatten, q1, q2, ?_, ?_, ?_, q4⟩
    · exact (hord _).nodup_iff.2 (List.nodup_dedup _)
    · intro id
      rw [(hord _).mem_iff, mem_graphbanks]
    · clear q4
      generalize ord (graphbanks s) = ids at q3 ⊢
      induction q3 with
      | nil => exact .nil
      | cons a _ ih =>
        obtain ⟨b, e, a1, a2, rfl⟩ := a
        exact .cons ⟨b, a1, a2⟩ ih

/-- C69.  What is in the archive: the matched corpora and the graph banks that their graph pairs use, with their
contents, under their base names in a directory named after the archive; and nothing else. -/
theorem archive_content {rd : Reader β γ} {site : Site β} {ord : List String → List String} (hord : ∀ l, (ord l).Perm l)
    {zip : Text} {pats : List Text} {arch : List (Text × β)} (h : pgcZip rd site ord zip pats = .ok arch)
    (e : Text × β) : e ∈ arch ↔ ∃ f, ToPack rd site pats f ∧ EntryOf site (archDir zip) f e := by
  obtain ⟨fns, parts, h1, -, rfl, h2⟩ := archive_exact hord h
  have hm : ∀ fn, fn ∈ fns ↔ Matched site pats fn := by
    intro fn
    rw [h1.mem_iff, List.mem_flatMap]
    rfl
  rw [List.mem_flatten]
  constructor
  · rintro ⟨part, hp, he⟩
    obtain ⟨fn, hfn, s, e1, ids, es, q1, q2, -, q4, q5, rfl⟩ := forall₂_right h2 hp
    rcases List.mem_cons.1 he with rfl | he
    · exact ⟨fn, ⟨fn, (hm fn).1 hfn, .inl rfl⟩, q2⟩
    · obtain ⟨id, hid, b, hb, hbe⟩ := forall₂_right q5 he
      exact ⟨b.path, ⟨fn, (hm fn).1 hfn, .inr ⟨s, q1, id, b, (q4 id).1 hid, hb, rfl⟩⟩, hbe⟩
  · rintro ⟨f, ⟨fn, hfn, hf⟩, he⟩
    obtain ⟨part, hp, s, e1, ids, es, q1, q2, -, q4, q5, rfl⟩ := forall₂_left h2 ((hm fn).2 hfn)
    refine ⟨_, hp, ?_⟩
    rcases hf with rfl | ⟨s', hs', id, b, hid, hb, rfl⟩
    · obtain ⟨n, c⟩ := e
      obtain ⟨n1, c1⟩ := e1
      obtain ⟨a1, a2⟩ := he
      obtain ⟨b1, b2⟩ := q2
      rw [a2] at b2
      dsimp only at a1 b1 b2
      cases b2
      rw [a1, b1]
      exact List.mem_cons_self
    · rw [hs'] at q1
      cases q1
      obtain ⟨e2, he2, b', hb', r1, r2⟩ := forall₂_left q5 ((q4 id).2 hid)
      rw [hb] at hb'
      cases hb'
      obtain ⟨n, c⟩ := e
      obtain ⟨n2, c2⟩ := e2
      obtain ⟨a1, a2⟩ := he
      rw [a2] at r2
      dsimp only at a1 r1 r2
      cases r2
      rw [a1, ← r1]
      exact List.mem_cons_of_mem _ he2

/-- C69.  Packing succeeds if and only if all matched corpora can be read, and all files to pack exist. -/
theorem packs_iff {rd : Reader β γ} {site : Site β} {ord : List String → List String} (hord : ∀ l, (ord l).Perm l)
    (zip : Text) (pats : List Text) :
    (∃ arch, pgcZip rd site ord zip pats = .ok arch) ↔
      (∀ fn, Matched site pats fn → ∃ s, readCorpus rd site false .none fn = .ok s) ∧
      ∀ f, ToPack rd site pats f → (site.file f).isSome := by
  unfold pgcZip
  rw [forIn_okay (f := packCorpus rd site ord (archDir zip)) (fun x acc => packCorpus_iff hord acc)]
  constructor
  · intro h
    refine ⟨fun fn hfn => ?_, ?_⟩
    · obtain ⟨s, hs, -⟩ := h fn ((mem_multiglob site pats fn).2 hfn)
      exact ⟨s, hs⟩
    · rintro f ⟨fn, hfn, hf⟩
      obtain ⟨s, hs, hb⟩ := h fn ((mem_multiglob site pats fn).2 hfn)
      rcases hf with rfl | ⟨s', hs', id, b, hid, hb', rfl⟩
      · obtain ⟨c, hc, -⟩ := readCorpus_ok hs
        rw [hc]
        rfl
      · rw [hs] at hs'
        cases hs'
        obtain ⟨b1, r1, r2⟩ := hb id hid
        rw [hb'] at r1
        cases r1
        exact r2
  · rintro ⟨h1, h2⟩ fn hfn
    have hfn := (mem_multiglob site pats fn).1 hfn
    obtain ⟨s, hs⟩ := h1 fn hfn
    refine ⟨s, hs, fun id hid => ?_⟩
    obtain ⟨c, -, hp, -⟩ := readCorpus_ok hs
    obtain ⟨b, hb⟩ := used_bank hp hid
    exact ⟨b, hb, h2 _ ⟨fn, hfn, .inr ⟨s, hs, id, b, hid, hb, rfl⟩⟩⟩

/-- C69.  If nothing is matched, the archive is empty and there is no error. -/
theorem nothing_matched (rd : Reader β γ) {site : Site β} (ord : List String → List String) (zip : Text) {pats : List Text}
    (h : ∀ fn, ¬ Matched site pats fn) : pgcZip rd site ord zip pats = .ok [] := by
  have : multiglob site pats = [] := by
    apply List.eq_nil_iff_forall_not_mem.2
    intro fn hfn
    exact h fn ((mem_multiglob site pats fn).1 hfn)
  unfold pgcZip
  rw [this]
  rfl

/-- C69.  Two files with the same base name and different contents: the archive cannot be unpacked without losing one. -/
theorem name_clash {rd : Reader β γ} {site : Site β} {ord : List String → List String} (hord : ∀ l, (ord l).Perm l)
    {zip : Text} {pats : List Text} {arch : List (Text × β)} (h : pgcZip rd site ord zip pats = .ok arch) {f g : Text}
    (hf : ToPack rd site pats f) (hg : ToPack rd site pats g) (hn : PosixPath.basename f = PosixPath.basename g)
    (hc : site.file f ≠ site.file g) (site' : Site β) (d : Text) : ¬ Unpacked arch site' d := by
  intro hu
  have ho := ((packs_iff (rd := rd) hord zip pats).1 ⟨arch, h⟩).2
  obtain ⟨c, hc1⟩ := Option.isSome_iff_exists.1 (ho f hf)
  obtain ⟨c', hc2⟩ := Option.isSome_iff_exists.1 (ho g hg)
  have e1 := hu _ c ((archive_content hord h (_, c)).2 ⟨f, hf, rfl, hc1⟩)
  have e2 := hu _ c' ((archive_content hord h (_, c')).2 ⟨g, hg, rfl, hc2⟩)
  rw [hn, e2] at e1
  rw [hc1, hc2] at hc
  exact hc e1.symm

/-- C69.  The directory in the archive has the base name of the archive without its extension; a name without extension, or
with points only before it, is kept. -/
theorem archive_directory {d name ext : Text} (hd : d = [] ∨ ∃ x, d = x ++ ['/']) (hn : '/' ∉ name) (he : '/' ∉ ext)
    (he' : '.' ∉ ext) : archDir (d ++ name ++ '.' :: ext) = (if ∀ c ∈ name, c = '.' then name ++ '.' :: ext else name) ∧
      ('.' ∉ name → archDir (d ++ name) = name) := by
  constructor
  · have h1 : PosixPath.basename (d ++ name ++ '.' :: ext) = name ++ '.' :: ext := by
      rw [List.append_assoc]
      refine PosixPath.basename_append ?_ hd
      simp [hn, he]
    have h2 : (name ++ '.' :: ext).reverse.dropWhile (fun c => decide (c ≠ '.')) = '.' :: name.reverse := by
      rw [List.reverse_append, List.reverse_cons, List.append_assoc, List.dropWhile_append_of_pos]
      · simp
      · intro c hc
        have : c ≠ '.' := by rintro rfl; exact he' (List.mem_reverse.1 hc)
        simpa using this
    unfold archDir stem
    rw [h1]
    dsimp only
    rw [h2]
    simp
  · intro h
    have h1 : PosixPath.basename (d ++ name) = name := PosixPath.basename_append hn hd
    have h2 : name.reverse.dropWhile (fun c => decide (c ≠ '.')) = [] := by
      rw [List.dropWhile_eq_nil_iff]
      intro c hc
      have : c ≠ '.' := by rintro rfl; exact h (List.mem_reverse.1 hc)
      simpa using this
    unfold archDir stem
    rw [h1]
    dsimp only
    rw [h2]
    simp

/-! ### Reading at the other site -/

private theorem unpacked_file {rd : Reader β γ} {site site' : Site β} {ord : List String → List String}
    (hord : ∀ l, (ord l).Perm l) {zip : Text} {pats : List Text} {arch : List (Text × β)} {d : Text}
    (h : pgcZip rd site ord zip pats = .ok arch) (hu : Unpacked arch site' d) {f : Text} (hf : ToPack rd site pats f) :
    site'.file (PosixPath.join d (PosixPath.join (archDir zip) (PosixPath.basename f))) = site.file f := by
  obtain ⟨c, hc⟩ := Option.isSome_iff_exists.1 (((packs_iff (rd := rd) hord zip pats).1 ⟨arch, h⟩).2 f hf)
  rw [hc]
  exact hu _ c ((archive_content hord h (_, c)).2 ⟨f, hf, rfl, hc⟩)

/-- C69.  Pack corpora, unpack the archive in directory `d` of another site, and read one of them there with relaxed paths of
graph banks: the result, or the error, is the same as at the first site, apart from the paths of the graph banks, if all
its graph banks are used in graph pairs, their recorded paths mean nothing at the other site, and there are no symbolic links
that change file names. -/
theorem unpacked_reads {rd : Reader β γ} {site site' : Site β} {ord : List String → List String}
    (hord : ∀ l, (ord l).Perm l) {zip : Text} {pats : List Text} {arch : List (Text × β)} {d fn : Text} {c : β}
    (h : pgcZip rd site ord zip pats = .ok arch) (hz : PosixPath.basename zip ≠ []) (hu : Unpacked arch site' d)
    (hfn : Matched site pats fn) (hc : site.file fn = some c)
    (hused : ∀ s, readCorpus rd site false .none fn = .ok s → ∀ k b, s.banks.get? k = some b → UsedPath s b.path)
    (hnamed : ∀ x, Recorded rd c x → Named x)
    (hgone : ∀ x, Recorded rd c x → site'.ex (place site' (PosixPath.join d (archDir zip)) x) = false)
    (hk : NamesKept site) (hk' : NamesKept site') (hr' : ∀ p, site'.file (site'.real p) = site'.file p) (mode : Load) :
    (readCorpus rd site' true mode
      (PosixPath.join d (PosixPath.join (archDir zip) (PosixPath.basename fn)))).map apart =
      (readCorpus rd site false mode fn).map apart := by
  have hA := archDir_noSlash zip
  have hA' := archDir_ne hz
  have hdir : PosixPath.dirname (PosixPath.join d (PosixPath.join (archDir zip) (PosixPath.basename fn))) =
      PosixPath.join d (archDir zip) := PosixPath.dirname_join d hA hA' (PosixPath.basename_noSlash fn)
  have hc' : site'.file (PosixPath.join d (PosixPath.join (archDir zip) (PosixPath.basename fn))) = some c :=
    (unpacked_file hord h hu ⟨fn, hfn, .inl rfl⟩).trans hc
  obtain ⟨s, hs⟩ := ((packs_iff (rd := rd) hord zip pats).1 ⟨arch, h⟩).1 fn hfn
  obtain ⟨c1, hc1, hparse, -⟩ := readCorpus_ok hs
  rw [hc] at hc1
  cases hc1
  have hplaced := placed_parse hparse
  refine (alike_map (readCorpus_alike hc hc' (fun p q => site.file p = site'.file q) (fun _ _ _ h => h) ?_)
    fun a b h => apart_eq h).symm
  intro x hx
  rw [hdir, bankPath_strict, bankPath_gone (hgone x hx), place_name hk' _ (hnamed x hx)]
  obtain ⟨e, t, he, ht, hxt, rfl⟩ := hx
  have hx : Recorded rd c (strip rd.ws t) := ⟨e, t, he, ht, hxt, rfl⟩
  obtain ⟨b, hb, hbp⟩ := hplaced e t he ht hxt
  have hbp : b.path = site.real (place site (PosixPath.dirname fn) (strip rd.ws t)) := by
    rw [hbp]
    simp only [env]
    rw [bankPath_strict]
  have hn : PosixPath.basename b.path = PosixPath.basename (strip rd.ws t) := by
    have := place_name hk (PosixPath.dirname fn) (hnamed _ hx)
    rw [hbp, hk _ (named_congr this (hnamed _ hx)), this]
  have := unpacked_file hord h hu ⟨fn, hfn, .inr ⟨s, hs, hused s hs _ b hb⟩⟩
  rw [hr', hr', PosixPath.join_assoc d hA hA' (PosixPath.basename_noSlash _), ← hn, this, hbp]

/-- C69.  Without graphs, the unpacked corpus is always read as at the first site (apart from the paths of graph banks). -/
theorem unpacked_reads_none {rd : Reader β γ} {site site' : Site β} {ord : List String → List String}
    (hord : ∀ l, (ord l).Perm l) {zip : Text} {pats : List Text} {arch : List (Text × β)} {d fn : Text}
    (h : pgcZip rd site ord zip pats = .ok arch) (hu : Unpacked arch site' d) (hfn : Matched site pats fn) (relax : Bool) :
    (readCorpus rd site' relax .none
      (PosixPath.join d (PosixPath.join (archDir zip) (PosixPath.basename fn)))).map apart =
      (readCorpus rd site false .none fn).map apart := by
  have hf := unpacked_file hord h hu ⟨fn, hfn, .inl rfl⟩
  obtain ⟨s, hs⟩ := ((packs_iff (rd := rd) hord zip pats).1 ⟨arch, h⟩).1 fn hfn
  obtain ⟨c, hc, -⟩ := readCorpus_ok hs
  exact (alike_map (readCorpus_alike hc (hf.trans hc) (fun _ _ => True) (fun h => absurd rfl h) fun _ _ => trivial)
    fun a b h => apart_eq h).symm

/-- C69.  Where the recorded paths exist, relaxed reading does what reading does otherwise. -/
theorem relaxed_same {rd : Reader β γ} {site : Site β} {fn : Text} {c : β} (hc : site.file fn = some c)
    (h : ∀ x, Recorded rd c x → site.ex (place site (PosixPath.dirname fn) x) = true) (mode : Load) :
    readCorpus rd site true mode fn = readCorpus rd site false mode fn := by
  have := alike_map (readCorpus_alike (rd := rd) (relax := true) (relax' := false) (mode := mode) hc hc Eq
    (fun _ p q h => by rw [h]) fun x hx => by rw [bankPath_there (h x hx), bankPath_there (h x hx)])
    (f := id) (g := id) fun a b h => likeState_eq h
  simpa [Except.map_id] using this

/-! ### Examples and limits -/

/-- Contents of sample files: a corpus with graph banks at the given paths, and a graph bank. -/
inductive Sample where
  | corpus (paths : List String)
  | bank (graphs : List (String × String))
  deriving DecidableEq

/-- A sample corpus with graph banks at the given paths; one graph pair aligns a graph of the first bank with a graph of the
second. -/
def sampleCorpus (paths : List String) : Elem := .mk "parallel_graph_corpus" [] none none
  [.mk "graphbanks" [("format", "graphml")] none none (paths.zipIdx.map fun x =>
      .mk "file" [("id", toString x.2)] (some x.1.toList) none []),
   .mk "aligned_graphs" [] none none [.mk "graph_pair" [("from_bank_id", "0"), ("to_bank_id", "1"),
    ("from_graph_id", "s"), ("to_graph_id", "t")] none none []]]

/-- A reader of sample files. -/
def sampleReader : Reader Sample String where
  ws c := c == ' '
  xml
    | .corpus l => (events (sampleCorpus l), none)
    | .bank _ => ([], some .valueError)
  graphs
    | some (.bank gs), _ => .ok gs
    | some (.corpus _), _ => .error .valueError
    | none, _ => .error .osError
  sparse
    | some (.bank gs), _, ids => .ok (gs.filter fun g => g.1 ∈ ids)
    | some (.corpus _), _, _ => .error .valueError
    | none, _, _ => .error .osError

/-- A sample site with the given files, and no symbolic links except the given one. -/
def sampleSite (files : List (String × Sample)) (link : String × String := ("", "")) : Site Sample where
  file p := (files.find? fun x => x.1.toList = p).map Prod.snd
  ex p := files.any fun x => x.1.toList = p
  real p := if p = link.1.toList then link.2.toList else p
  glob p := [p]

/-- The first site: a corpus, with one bank in another directory and one in a subdirectory. -/
def site1 : Site Sample := sampleSite [("/w/c.pgc", .corpus ["/banks/x.gb", " sub/y.gb "]),
  ("/banks/x.gb", .bank [("s", "S"), ("u", "U")]), ("/w/sub/y.gb", .bank [("t", "T")])]

/-- The other site, with the archive unpacked in /new. -/
def site2 : Site Sample := sampleSite [("/new/pack/c.pgc", .corpus ["/banks/x.gb", " sub/y.gb "]),
  ("/new/pack/x.gb", .bank [("s", "S"), ("u", "U")]), ("/new/pack/y.gb", .bank [("t", "T")])]

/-- The archive. -/
def sampleArch : List (Text × Sample) :=
  [("pack/c.pgc".toList, .corpus ["/banks/x.gb", " sub/y.gb "]),
   ("pack/x.gb".toList, .bank [("s", "S"), ("u", "U")]), ("pack/y.gb".toList, .bank [("t", "T")])]

private def one (rd : Reader Sample String) (site : Site Sample) (zip fn : String) : Option (List (Text × Sample)) :=
  (Py.forIn [fn.toList] [] (packCorpus rd site id (archDir zip.toList))).toOption

private theorem zip_one {rd : Reader Sample String} {files : List (String × Sample)} {link : String × String}
    {zip fn : String} {arch : List (Text × Sample)} (h : one rd (sampleSite files link) zip fn = some arch) :
    pgcZip rd (sampleSite files link) id zip.toList [fn.toList] = .ok arch := by
  have : multiglob (sampleSite files link) [fn.toList] = [fn.toList] := by
    unfold multiglob sampleSite
    exact List.mergeSort_singleton _
  unfold pgcZip
  rw [this]
  unfold one at h
  generalize Py.forIn _ _ _ = r at h
  cases r with
  | error e => cases h
  | ok a => cases h; rfl

private theorem sample_zip : pgcZip sampleReader site1 id "/tmp/pack.zip".toList ["/w/c.pgc".toList] = .ok sampleArch :=
  zip_one (by decide +kernel)

private theorem sample_real (files : List (String × Sample)) (p : Text) : (sampleSite files).real p = p := by
  unfold sampleSite
  dsimp only
  split
  · rename_i h; rw [h]
  · rfl

private theorem sample_recorded {c : Sample} {x : Text} (h : Recorded sampleReader c x) :
    x ∈ (sampleReader.xml c).1.filterMap (fileText sampleReader.ws) := by
  obtain ⟨e, t, h1, h2, h3, rfl⟩ := h
  exact List.mem_filterMap.2 ⟨_, h1, by simp [fileText, h2, h3]⟩

private def allUsed (s : State String) : Bool :=
  s.banks.all fun x => s.pairs.any fun p => x.1 = some p.sourceBank || x.1 = some p.targetBank

private theorem allUsed_path {s : State String} (h : allUsed s = true) {k : Option String} {b : Bank String}
    (hb : s.banks.get? k = some b) : UsedPath s b.path := by
  unfold allUsed at h
  rw [List.all_eq_true] at h
  have := h _ (AD.mem_of_get? hb)
  obtain ⟨p, hp, hp'⟩ := List.any_eq_true.1 this
  simp only [Bool.or_eq_true, decide_eq_true_eq] at hp'
  rcases hp' with rfl | rfl
  · exact ⟨_, b, ⟨p, hp, .inl rfl⟩, hb, rfl⟩
  · exact ⟨_, b, ⟨p, hp, .inr rfl⟩, hb, rfl⟩

/-- All hypotheses of `unpacked_reads` hold for a corpus with two banks, from other directories. -/
example (mode : Load) : (readCorpus sampleReader site2 true mode
      (PosixPath.join "/new".toList (PosixPath.join (archDir "/tmp/pack.zip".toList) (PosixPath.basename "/w/c.pgc".toList)))).map
      apart = (readCorpus sampleReader site1 false mode "/w/c.pgc".toList).map apart := by
  refine unpacked_reads (c := .corpus ["/banks/x.gb", " sub/y.gb "]) (fun _ => .refl _) sample_zip (by decide) ?_
    ⟨_, by simp, List.mem_singleton.2 rfl⟩ (by decide +kernel) ?_ ?_ ?_ ?_ ?_ ?_ mode
  · intro n c h
    have : ∀ x ∈ sampleArch, site2.file (PosixPath.join "/new".toList x.1) = some x.2 := by decide +kernel
    exact this _ h
  · intro s hs k b hb
    have h1 : (readCorpus sampleReader site1 false .none "/w/c.pgc".toList).toOption.map
        (fun s => allUsed s) = some true := by decide +kernel
    rw [hs] at h1
    exact allUsed_path (Option.some.inj h1) hb
  · intro x hx
    have : ∀ x ∈ (sampleReader.xml (.corpus ["/banks/x.gb", " sub/y.gb "])).1.filterMap (fileText sampleReader.ws),
        PosixPath.basename x ≠ [] ∧ PosixPath.basename x ≠ ['.'] ∧ PosixPath.basename x ≠ ['.', '.'] := by decide +kernel
    exact this _ (sample_recorded hx)
  · intro x hx
    have : ∀ x ∈ (sampleReader.xml (.corpus ["/banks/x.gb", " sub/y.gb "])).1.filterMap (fileText sampleReader.ws),
        site2.ex (place site2 (PosixPath.join "/new".toList (archDir "/tmp/pack.zip".toList)) x) = false := by decide +kernel
    exact this _ (sample_recorded hx)
  · intro p _
    exact congrArg _ (sample_real _ p)
  · intro p _
    exact congrArg _ (sample_real _ p)
  · intro p
    exact congrArg _ (sample_real _ p)

/-- The graphs read there are those of the banks. -/
example : ((readCorpus sampleReader site2 true .sparse "/new/pack/c.pgc".toList).map fun s =>
    s.pairs.map fun p => (p.source, p.target)) = .ok [(some "S", some "T")] := by decide +kernel

/-- The recorded paths exist at the first site, so relaxed reading does the same. -/
example (mode : Load) : readCorpus sampleReader site1 true mode "/w/c.pgc".toList =
    readCorpus sampleReader site1 false mode "/w/c.pgc".toList := by
  refine relaxed_same (c := .corpus ["/banks/x.gb", " sub/y.gb "]) (by decide +kernel) (fun x hx => ?_) mode
  have : ∀ x ∈ (sampleReader.xml (.corpus ["/banks/x.gb", " sub/y.gb "])).1.filterMap (fileText sampleReader.ws),
      site1.ex (place site1 (PosixPath.dirname "/w/c.pgc".toList) x) = true := by decide +kernel
  exact this _ (sample_recorded hx)

/-- C69.  Limit: a graph bank that no graph pair uses is not packed, and then the unpacked corpus cannot be read with its
graphs, though it can be at the first site. -/
theorem unused_bank_missing :
    let files := [("/w/c.pgc", Sample.corpus ["x.gb", "y.gb", "z.gb"]), ("/w/x.gb", .bank [("s", "S")]),
      ("/w/y.gb", .bank [("t", "T")]), ("/w/z.gb", .bank [])]
    pgcZip sampleReader (sampleSite files) id "pack.zip".toList ["/w/c.pgc".toList] =
      .ok [("pack/c.pgc".toList, .corpus ["x.gb", "y.gb", "z.gb"]), ("pack/x.gb".toList, .bank [("s", "S")]),
        ("pack/y.gb".toList, .bank [("t", "T")])] ∧
    (readCorpus sampleReader (sampleSite files) false .sparse "/w/c.pgc".toList).map (fun _ => ()) = .ok () ∧
    (readCorpus sampleReader (sampleSite [("pack/c.pgc", Sample.corpus ["x.gb", "y.gb", "z.gb"]),
      ("pack/x.gb", .bank [("s", "S")]), ("pack/y.gb", .bank [("t", "T")])]) true .sparse "pack/c.pgc".toList).map
      (fun _ => ()) = .error .daesoError :=
  ⟨zip_one (by decide +kernel), by decide +kernel, by decide +kernel⟩

/-- C69.  Limit: a graph bank reached through a symbolic link is packed under the name the link points to, and is not found
under the recorded name. -/
theorem linked_bank_missing :
    let files := [("/w/c.pgc", Sample.corpus ["/w/x.gb", "/w/y.gb"]), ("/store/x1.gb", .bank [("s", "S")]),
      ("/w/y.gb", .bank [("t", "T")])]
    let link := ("/w/x.gb", "/store/x1.gb")
    pgcZip sampleReader (sampleSite files link) id "pack.zip".toList ["/w/c.pgc".toList] =
      .ok [("pack/c.pgc".toList, .corpus ["/w/x.gb", "/w/y.gb"]), ("pack/x1.gb".toList, .bank [("s", "S")]),
        ("pack/y.gb".toList, .bank [("t", "T")])] ∧
    (readCorpus sampleReader (sampleSite files link) false .sparse "/w/c.pgc".toList).map (fun _ => ()) = .ok () ∧
    (readCorpus sampleReader (sampleSite [("pack/c.pgc", Sample.corpus ["/w/x.gb", "/w/y.gb"]),
      ("pack/x1.gb", .bank [("s", "S")]), ("pack/y.gb", .bank [("t", "T")])]) true .sparse "pack/c.pgc".toList).map
      (fun _ => ()) = .error .daesoError :=
  ⟨zip_one (by decide +kernel), by decide +kernel, by decide +kernel⟩

/-- C69.  Limit: if another file exists at the recorded path at the other site, it is read instead of the packed bank. -/
theorem other_file_read :
    ((readCorpus sampleReader (sampleSite [("pack/c.pgc", .corpus ["/w/x.gb", "/w/y.gb"]), ("pack/x.gb", .bank [("s", "S")]),
      ("pack/y.gb", .bank [("t", "T")]), ("/w/x.gb", .bank [("s", "other")])]) true .sparse "pack/c.pgc".toList).map fun s =>
      s.pairs.map fun p => (p.source, p.target)) = .ok [(some "other", some "T")] := by decide +kernel

/-- Two banks with the same base name are both packed, under one name: an instance of `name_clash`. -/
example : pgcZip sampleReader (sampleSite [("/w/c.pgc", .corpus ["/a/x.gb", "/b/x.gb"]), ("/a/x.gb", .bank [("s", "S")]),
    ("/b/x.gb", .bank [("t", "T")])]) id "pack.zip".toList ["/w/c.pgc".toList] =
    .ok [("pack/c.pgc".toList, .corpus ["/a/x.gb", "/b/x.gb"]), ("pack/x.gb".toList, .bank [("s", "S")]),
      ("pack/x.gb".toList, .bank [("t", "T")])] := zip_one (by decide +kernel)

end Verif.Props.PgcZip
