import Verif.Lemmas.RelPath
import Verif.Model.Pgc

/-! C70: the paths of graph banks in a corpus file lead back to the graph banks. -/
namespace Verif.Props.RelPath
open Verif Verif.Etree Verif.RelPath Verif.Spec.RelPath

private theorem render_path (l : List Text) : render l = path l := rfl

private theorem render_inj {l m : List Text} (hl : ∀ n ∈ l, Proper n) (hm : ∀ n ∈ m, Proper n) (h : render l = render m) :
    l = m := by
  rw [← names_render hl, h, names_render hm]

/-- C70.  os.path.realpath gives the path of a place without links, and then itself. -/
theorem realpath_place {fs : FS} {cwd : List Text} (hc : Place fs.link cwd) {q p : Text} (h : realpath fs cwd q = some p) :
    ∃ l, Place fs.link l ∧ p = path l ∧ ∀ cwd', realpath fs cwd' p = some p := by
  unfold realpath at h
  cases hl : locate fs cwd q with
  | none => rw [hl] at h; cases h
  | some l =>
    rw [hl] at h
    cases h
    have := locate_place hc hl
    exact ⟨l, this, rfl, fun cwd' => realpath_render cwd' this⟩

private theorem rel_found {fs : FS} {cwd d p : List Text} (hd : ∀ n ∈ d, Proper n) (hp : Place fs.link p) {a : Text}
    (ha : locate fs cwd a = some d) {d0 p0 : List Text} (hd0 : ∀ n ∈ d0, Proper n) (hp0 : ∀ n ∈ p0, Proper n)
    (hrel : relNames d0 p0 = relNames d p) :
    isAbs (relpath (render p0) (render d0)) = false ∧
      locate fs cwd (PosixPath.join a (relpath (render p0) (render d0))) = some p := by
  obtain ⟨h1, h2⟩ := relpath_render hd0 hp0
  refine ⟨h1, ?_⟩
  rw [locate_join ha h1, h2, hrel]
  have h3 := foldlM_rel (link := fs.link) fs.depth (d := d) hp
  split
  · rename_i h
    rw [h] at h3
    cases h3
    rw [List.foldlM_cons]
    have : enter fs.link fs.depth d ['.'] = some d := by
      unfold enter
      rw [if_pos rfl]
    rw [this]
    rfl
  · exact h3

/-- C70.  Write a corpus, and read it from any working directory and by any path that leads to the directory it was written
to, with symbolic links or not: each graph bank has its path again, whether paths were written relative or absolute. -/
theorem bank_found {fs : FS} {cwd0 cwd cwd' : List Text} (h0 : Place fs.link cwd0) (h1 : Place fs.link cwd)
    {q p outf inf d x : Text} (hp : realpath fs cwd0 q = some p)
    (hd : realpath fs cwd (PosixPath.dirname outf) = some d) (hd' : realpath fs cwd' (PosixPath.dirname inf) = some d)
    (h2 : Place fs.link cwd') {abs : Bool} (hx : bankText fs cwd abs outf p = some x) : bankPath fs cwd' inf x = some p := by
  obtain ⟨lp, hlp, rfl, hself⟩ := realpath_place h0 hp
  unfold bankText at hx
  split at hx
  · cases hx
    unfold bankPath
    rw [← render_path, isAbs_render]
    exact hself cwd'
  · obtain ⟨ld, hld, rfl, -⟩ := realpath_place h1 hd
    rw [hd] at hx
    cases hx
    have hloc : locate fs cwd' (PosixPath.dirname inf) = some ld := by
      unfold realpath at hd'
      cases hl : locate fs cwd' (PosixPath.dirname inf) with
      | none => rw [hl] at hd'; cases hd'
      | some m =>
        rw [hl] at hd'
        have := render_inj (locate_place h2 hl).proper hld.proper (Option.some.inj hd')
        rw [this]
    obtain ⟨h3, h4⟩ := rel_found (fs := fs) hld.proper hlp hloc hld.proper hlp.proper rfl
    unfold bankPath
    change (if isAbs (relpath (render lp) (render ld)) = true then _ else
      (realpath fs cwd' (PosixPath.join (PosixPath.dirname inf) (relpath (render lp) (render ld)))).bind _) = _
    rw [h3]
    have h5 : realpath fs cwd' (PosixPath.join (PosixPath.dirname inf) (relpath (render lp) (render ld))) = some (path lp) := by
      unfold realpath
      rw [h4]
      rfl
    rw [h5]
    exact hself cwd'

/-- C70.  Move a corpus and its graph bank together, from below directory `a` of one file system to below directory `b` of
another (or the same): the relative path leads to the graph bank at its new place. -/
theorem bank_moved {fs fs' : FS} {cwd cwd' a b u v : List Text} {outf inf x : Text}
    (hp : Place fs.link (a ++ v)) (hd0 : Place fs.link (a ++ u)) (hp' : Place fs'.link (b ++ v)) (hc' : Place fs'.link cwd')
    (hd : realpath fs cwd (PosixPath.dirname outf) = some (path (a ++ u)))
    (hd' : realpath fs' cwd' (PosixPath.dirname inf) = some (path (b ++ u))) (hd1 : Place fs'.link (b ++ u))
    (hx : bankText fs cwd false outf (path (a ++ v)) = some x) : bankPath fs' cwd' inf x = some (path (b ++ v)) := by
  unfold bankText at hx
  rw [if_neg (by decide), hd] at hx
  cases hx
  have hloc : locate fs' cwd' (PosixPath.dirname inf) = some (b ++ u) := by
    unfold realpath at hd'
    cases hl : locate fs' cwd' (PosixPath.dirname inf) with
    | none => rw [hl] at hd'; cases hd'
    | some m =>
      rw [hl] at hd'
      have := render_inj (locate_place hc' hl).proper hd1.proper (Option.some.inj hd')
      rw [this]
  obtain ⟨h3, h4⟩ := rel_found (fs := fs') hd1.proper hp' hloc hd0.proper hp.proper
    ((relNames_append a u v).trans (relNames_append b u v).symm)
  unfold bankPath
  change (if isAbs (relpath (render (a ++ v)) (render (a ++ u))) = true then _ else
    (realpath fs' cwd' (PosixPath.join (PosixPath.dirname inf) (relpath (render (a ++ v)) (render (a ++ u))))).bind _) = _
  rw [h3]
  have h5 : realpath fs' cwd' (PosixPath.join (PosixPath.dirname inf) (relpath (render (a ++ v)) (render (a ++ u)))) =
      some (path (b ++ v)) := by
    unfold realpath
    rw [h4]
    rfl
  rw [h5]
  exact realpath_render cwd' hp'

/-- C70.  An absolute path leads to the same place wherever the corpus is. -/
theorem absolute_stays {fs fs' : FS} {cwd cwd' l : List Text} (hl : Place fs'.link l) {outf inf x : Text}
    (hx : bankText fs cwd true outf (path l) = some x) : bankPath fs' cwd' inf x = some (path l) := by
  cases hx
  unfold bankPath
  rw [← render_path, isAbs_render]
  exact realpath_render cwd' hl

/-- C70.  Stripping white space on reading does not change the text of a path, if no name on it begins or ends with white
space. -/
theorem text_kept {fs : FS} {cwd l : List Text} {ws : Char → Bool} (hw : ws '.' = false) (hw' : ws '/' = false)
    (hc : Place fs.link cwd) (hl : Place fs.link l) (hb : NoBlankEnds ws l) {abs : Bool} {outf x : Text}
    (hx : bankText fs cwd abs outf (path l) = some x) : strip ws x = x ∧ x ≠ [] := by
  unfold bankText at hx
  split at hx
  · cases hx
    have hne : path l ≠ [] := by
      unfold path
      split
      · decide
      · cases l with
        | nil => contradiction
        | cons n l => simp
    refine ⟨strip_ends ?_ ?_, hne⟩
    · intro c hc
      have := isAbs_render l
      rw [render_path] at this
      unfold isAbs at this
      rw [hc] at this
      simp only [decide_eq_true_eq, Option.some.injEq] at this
      rw [this]
      exact hw'
    · intro c hc
      unfold path at hc
      split at hc
      · cases hc; exact hw'
      · rename_i hne'
        rcases List.eq_nil_or_concat l with h | ⟨l', n, rfl⟩
        · exact absurd h hne'
        · rw [List.concat_eq_append, List.flatMap_append] at hc
          have hn : n ∈ l' ++ [n] := by simp
          have hp := hl.proper n (by simp)
          cases hn' : n.getLast? with
          | none => exact absurd (List.getLast?_eq_none_iff.1 hn') hp.1
          | some y =>
            have : y = c := by simpa [List.getLast?_append, List.getLast?_cons, hn'] using hc
            subst this
            exact (hb n (by simp)).2 _ hn'
  · cases hd : realpath fs cwd (PosixPath.dirname outf) with
    | none => rw [hd] at hx; cases hx
    | some d =>
      rw [hd] at hx
      cases hx
      obtain ⟨ld, hld, rfl, -⟩ := realpath_place hc hd
      change strip ws (relpath (render l) (render ld)) = relpath (render l) (render ld) ∧ relpath (render l) (render ld) ≠ []
      have hr := relNames_proper (d := ld) hl.proper
      have hends : ∀ n ∈ relNames ld l, (∀ c, n.head? = some c → ws c = false) ∧ ∀ c, n.getLast? = some c → ws c = false := by
        intro n hn
        unfold relNames at hn
        rcases List.mem_append.1 hn with hn | hn
        · rw [(List.mem_replicate.1 hn).2]
          constructor
          · intro c hc; cases hc; exact hw
          · intro c hc; cases hc; exact hw
        · exact hb n (List.mem_of_mem_drop hn)
      unfold relpath
      rw [names_render hld.proper, names_render hl.proper]
      cases hrel : relNames ld l with
      | nil =>
        refine ⟨strip_ends ?_ ?_, by simp⟩
        · intro c hc; cases hc; exact hw
        · intro c hc; cases hc; exact hw
      | cons n m =>
        rw [hrel] at hr hends
        dsimp only
        obtain ⟨h1, h2⟩ := join_ends m (fun k hk => hr k (by simp [hk])) n (.inl (hr n (by simp)))
        constructor
        · refine strip_ends ?_ ?_
          · intro c hc
            rw [h1] at hc
            exact (hends n (by simp)).1 c hc
          · intro c hc
            rcases h2 with h2 | ⟨k, hk, h2⟩
            · rw [h2] at hc
              exact (hends n (by simp)).2 c hc
            · rw [h2] at hc
              exact (hends k (by simp [hk])).2 c hc
        · intro h
          rw [h] at h1
          cases n with
          | nil => exact (hr [] (by simp)).1 rfl
          | cons c n => cases h1

/-- C70.  The condition on paths in C38 (reading what was written) holds for the paths that the program writes and reads. -/
theorem files_lead_back {γ : Type} {fs : FS} {cwd cwd' : List Text} {env : Pgc.Env γ} {outf inf d : Text} {abs : Bool}
    (hw : env.ws '.' = false) (hw' : env.ws '/' = false) (h1 : Place fs.link cwd) (h2 : Place fs.link cwd')
    (hd : realpath fs cwd (PosixPath.dirname outf) = some d) (hd' : realpath fs cwd' (PosixPath.dirname inf) = some d)
    (henv : ∀ x p, bankPath fs cwd' inf x = some p → env.resolve x = p) {shown : String → Text}
    (hshown : ∀ p, bankText fs cwd abs outf p.toList = some (shown p)) {p : String} {l : List Text}
    (hp : p.toList = path l) (hl : Place fs.link l) (hb : NoBlankEnds env.ws l) :
    strip env.ws (shown p) ≠ [] ∧ env.resolve (strip env.ws (shown p)) = p.toList := by
  have hx := hshown p
  rw [hp] at hx
  obtain ⟨e1, e2⟩ := text_kept hw hw' h1 hl hb hx
  rw [e1]
  refine ⟨e2, henv _ _ ?_⟩
  rw [hp]
  exact bank_found h1 h1 (realpath_render cwd hl) hd hd' h2 hx

/-! ### Examples and limits -/

/-- A file system in which /home/me/work is a link to /data/corpora/x and /data/c.pgc a link to a file there. -/
def sampleFS : FS where
  link l := if l = ["home".toList, "me".toList, "work".toList] then some "../../data/corpora/x".toList
    else if l = ["data".toList, "c.pgc".toList] then some "/data/corpora/x/c.pgc".toList else none
  depth := 10

/-- Written through the link, from the home directory: relative to the directory that the link leads to. -/
example : bankText sampleFS ["home".toList, "me".toList] false "work/c.pgc".toList "/data/banks/b.gb".toList =
    some "../../banks/b.gb".toList := by decide +kernel

/-- Read by a path without the link, from another working directory; and the hypotheses of `bank_found`. -/
example : bankPath sampleFS ["data".toList] "corpora/x/c.pgc".toList "../../banks/b.gb".toList =
    some "/data/banks/b.gb".toList :=
  bank_found (cwd0 := []) (cwd := ["home".toList, "me".toList]) (abs := false) (q := "/data/./banks/b.gb".toList)
    (outf := "work/c.pgc".toList) (d := "/data/corpora/x".toList) .nil
    (.snoc (.snoc .nil (l := []) ⟨⟨by decide, by decide⟩, by decide, by decide, by decide +kernel⟩)
      ⟨⟨by decide, by decide⟩, by decide, by decide, by decide +kernel⟩)
    (by decide +kernel) (by decide +kernel) (by decide +kernel)
    (.snoc .nil (l := []) ⟨⟨by decide, by decide⟩, by decide, by decide, by decide +kernel⟩) (by decide +kernel)

/-- C70.  Limit: if the corpus file itself is a link, the relative path is taken from the directory of the link. -/
theorem linked_corpus : bankPath sampleFS [] "/data/c.pgc".toList "../../banks/b.gb".toList = some "/banks/b.gb".toList ∧
    bankPath sampleFS [] "/data/corpora/x/c.pgc".toList "../../banks/b.gb".toList = some "/data/banks/b.gb".toList := by
  decide +kernel

/-- C70.  Limit: a file name that ends with a blank is not found again. -/
theorem blank_lost : bankText sampleFS [] false "/data/c".toList "/data/b ".toList = some "b ".toList ∧
    bankPath sampleFS [] "/data/c".toList (strip (· == ' ') "b ".toList) = some "/data/b".toList := by decide +kernel

/-- C70.  The relative path is found from the directory that links lead to: from the directory as it was given, the path
would lead elsewhere. -/
theorem unresolved_directory : relpath "/data/banks/b.gb".toList "/home/me/work".toList = "../../../data/banks/b.gb".toList ∧
    bankPath sampleFS [] "/home/me/work/c.pgc".toList "../../../data/banks/b.gb".toList = some "/data/banks/b.gb".toList ∧
    bankPath { sampleFS with link := fun l => if l = ["home".toList] then some "/data/a/b/c".toList else none } []
      "/home/c.pgc".toList (relpath "/banks/b.gb".toList "/home".toList) = some "/data/a/b/banks/b.gb".toList := by
  decide +kernel

private theorem plain {l : List Text} (h : ∀ n ∈ l, n ≠ [] ∧ '/' ∉ n ∧ n ≠ ['.'] ∧ n ≠ ['.', '.']) :
    Place (fun _ => none) l := by
  intro l1 n l2 e
  obtain ⟨h1, h2, h3, h4⟩ := h n (by simp [e])
  exact ⟨⟨h1, h2⟩, h3, h4, rfl⟩

/-- Corpus and bank moved from /home/me/p to /srv: an instance of `bank_moved`. -/
example : bankPath ⟨fun _ => none, 0⟩ [] "/srv/c/x.pgc".toList "../b/y.gb".toList = some "/srv/b/y.gb".toList :=
  bank_moved (fs := ⟨fun _ => none, 0⟩) (cwd := []) (a := ["home".toList, "me".toList, "p".toList]) (b := ["srv".toList])
    (u := ["c".toList]) (v := ["b".toList, "y.gb".toList]) (outf := "/home/me/p/c/x.pgc".toList)
    (plain (by decide)) (plain (by decide)) (plain (by decide)) (plain (by decide)) (by decide +kernel) (by decide +kernel)
    (plain (by decide)) (by decide +kernel)

end Verif.Props.RelPath
