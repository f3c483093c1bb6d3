import Verif.Spec.PtcChdir
import Verif.Lemmas.HitaextFileRun
import Verif.Props.HitaextFile

/-! Property C68 (bin/ptc_chdir.py). -/
namespace Verif.Props.PtcChdir
open Verif Verif.Etree Verif.HitaextFile Verif.PtcChdir Verif.Spec.HitaextFile Verif.Spec.PtcChdir
open Verif.Props.HitaextFile (Named)

private theorem basename_tail {d n : Text} (hn : '/' ∉ n) (hd : d = [] ∨ ∃ x, d = x ++ ['/']) :
    PosixPath.basename (d ++ n) = n := by
  unfold PosixPath.basename
  rw [List.reverse_append]
  have hall : ∀ c ∈ n.reverse, (decide (c ≠ '/')) = true := by
    intro c hc
    have : c ≠ '/' := by rintro rfl; exact hn (List.mem_reverse.1 hc)
    simpa using this
  rcases hd with rfl | ⟨x, rfl⟩
  · have := List.takeWhile_append_of_pos (l₂ := []) hall
    rw [List.append_nil, List.takeWhile_nil, List.append_nil] at this
    rw [List.reverse_nil, List.append_nil, this, List.reverse_reverse]
  · rw [List.reverse_append, List.takeWhile_append_of_pos hall]
    simp

private theorem join_inDir {dir n : Text} (hn : '/' ∉ n) : PosixPath.join dir n = inDir dir n := by
  have h0 : n.head? ≠ some '/' := by
    intro h
    cases n with
    | nil => simp at h
    | cons c n => simp at h; exact hn (by simp [h])
  unfold PosixPath.join inDir
  rw [if_neg h0]
  by_cases h1 : dir = []
  · simp [h1]
  · by_cases h2 : dir.getLast? = some '/'
    · simp [h1, h2]
    · simp [h1, h2]

private theorem slashes_append (a b : Text) : slashes (a ++ b) = slashes a ++ slashes b := by simp [slashes]

private theorem slashes_self {n : Text} (h : '\\' ∉ n) : slashes n = n := by
  unfold slashes
  conv_rhs => rw [← List.map_id n]
  refine List.map_congr_left fun c hc => ?_
  have : c ≠ '\\' := by rintro rfl; exact h hc
  simp [this]

/-- A path with which the program can do something: not empty, and not a single capital. -/
def Usable (p : Text) : Prop := p ≠ [] ∧ ∀ c : Char, p = [c] → c.isUpper = false

private theorem stripDrive_spec {p drive rest : Text} (hu : Usable p) (he : p = drive ++ rest)
    (hd : Drive drive ∨ drive = [] ∧ ¬ ∃ x, Drive x ∧ x <+: p) : stripDrive p = .ok rest := by
  rcases hd with ⟨c, hc, rfl⟩ | ⟨rfl, hno⟩
  · subst he
    simp [stripDrive, hc]
  · rw [List.nil_append] at he
    subst he
    cases p with
    | nil => exact absurd rfl hu.1
    | cons c p =>
      unfold stripDrive
      dsimp only
      by_cases hc : c.isUpper = true
      · rw [if_pos hc]
        cases p with
        | nil => rw [hu.2 c rfl] at hc; cases hc
        | cons d q =>
          have : d ≠ ':' := by
            rintro rfl
            exact hno ⟨[c, ':'], ⟨c, hc, rfl⟩, q, rfl⟩
          simp [this]
      · rw [if_neg hc]

/-- C68.  The new path is the file name of the old path in the new directory; Windows paths, with a drive or backslashes,
are understood. -/
theorem new_path {p n : Text} (dir : Text) (hu : Usable p) (hn : FileName p n) : newPath dir p = .ok (inDir dir n) := by
  obtain ⟨drive, d, he, h1, h2, h3, h4⟩ := hn
  unfold newPath
  rw [stripDrive_spec (rest := d ++ n) hu (by rw [he, List.append_assoc]) h1]
  dsimp only
  rw [slashes_append, slashes_self h4, basename_tail h3 ?_, join_inDir h3]
  rcases h2 with rfl | ⟨x, rfl | rfl⟩
  · exact .inl rfl
  · exact .inr ⟨slashes x, by rw [slashes_append]; rfl⟩
  · exact .inr ⟨slashes x, by rw [slashes_append]; rfl⟩

/-- What follows the last slash or backslash. -/
private theorem split_last (p : Text) : ∃ d n, p = d ++ n ∧ (d = [] ∨ ∃ x, d = x ++ ['/'] ∨ d = x ++ ['\\']) ∧
    '/' ∉ n ∧ '\\' ∉ n := by
  induction p using List.reverseRecOn with
  | nil => exact ⟨[], [], rfl, .inl rfl, by simp, by simp⟩
  | append_singleton p c ih =>
    by_cases h1 : c = '/'
    · exact ⟨p ++ [c], [], by simp, .inr ⟨p, .inl (by rw [h1])⟩, by simp, by simp⟩
    by_cases h2 : c = '\\'
    · exact ⟨p ++ [c], [], by simp, .inr ⟨p, .inr (by rw [h2])⟩, by simp, by simp⟩
    obtain ⟨d, n, he, hd, h3, h4⟩ := ih
    refine ⟨d, n ++ [c], by rw [he, List.append_assoc], hd, ?_, ?_⟩
    · simp [h3, Ne.symm h1]
    · simp [h4, Ne.symm h2]

/-- C68.  Every path has a file name, which may be empty; for paths that are not usable an exception is raised. -/
theorem new_path_total (dir p : Text) : (∃ n, FileName p n) ∧ (¬ Usable p → newPath dir p = .error .indexError) := by
  constructor
  · by_cases h : ∃ x, Drive x ∧ x <+: p
    · obtain ⟨x, hx, q, rfl⟩ := h
      obtain ⟨d, n, rfl, hd, h3, h4⟩ := split_last q
      exact ⟨n, x, d, by rw [List.append_assoc], .inl hx, hd, h3, h4⟩
    · obtain ⟨d, n, he, hd, h3, h4⟩ := split_last p
      exact ⟨n, [], d, by rw [List.nil_append]; exact he, .inr ⟨rfl, h⟩, hd, h3, h4⟩
  · intro hu
    unfold newPath
    have : stripDrive p = .error .indexError := by
      cases p with
      | nil => rfl
      | cons c q =>
        cases q with
        | nil =>
          by_cases hc : c.isUpper = true
          · simp [stripDrive, hc]
          · exact absurd ⟨by simp, fun d hd => by simp at hd; rw [← hd]; simpa using hc⟩ hu
        | cons e q => exact absurd ⟨by simp, by simp⟩ hu
    rw [this]

/-- C68.  A path that was changed stays as it is when the program is run again with the same directory; without a directory,
if the file name does not look like a drive or a single capital. -/
theorem again {dir n : Text} (h1 : '/' ∉ n) (h2 : '\\' ∉ n)
    (h : dir ≠ [] ∨ Usable n ∧ ¬ ∃ x, Drive x ∧ x <+: n) : newPath dir (inDir dir n) = .ok (inDir dir n) := by
  by_cases hdir : dir = []
  · subst hdir
    obtain ⟨hu, hno⟩ := h.resolve_left (by simp)
    have : inDir [] n = n := rfl
    rw [this]
    have := new_path [] hu (n := n) ⟨[], [], rfl, .inr ⟨rfl, hno⟩, .inl rfl, h1, h2⟩
    exact this
  · have hin : ∃ x, inDir dir n = (x ++ ['/']) ++ n := by
      unfold inDir
      rw [if_neg hdir]
      split
      · rename_i hl
        obtain ⟨x, hx⟩ := List.getLast?_eq_some_iff.1 hl
        exact ⟨x, by rw [hx]⟩
      · exact ⟨dir, rfl⟩
    obtain ⟨x, hx⟩ := hin
    have hslash : Char.isUpper '/' = false := by decide
    refine new_path dir ?_ ?_
    · rw [hx]
      refine ⟨by simp, fun c hc => ?_⟩
      cases x with
      | nil => simp at hc; rw [← hc.1]; decide
      | cons y x => simp at hc
    · by_cases hdr : ∃ y, Drive y ∧ y <+: inDir dir n
      · obtain ⟨y, ⟨c, hc, rfl⟩, q, hq⟩ := hdr
        rw [hx] at hq
        match x, hq with
        | [], hq => simp at hq; rw [hq.1, hslash] at hc; cases hc
        | [a], hq => simp at hq
        | a :: b :: x, hq =>
          simp only [List.cons_append, List.nil_append, List.cons.injEq] at hq
          refine ⟨[c, ':'], x ++ ['/'], ?_, .inl ⟨c, hc, rfl⟩, .inr ⟨x, .inl rfl⟩, h1, h2⟩
          rw [hx, ← hq.1, ← hq.2.1]
          simp
      · exact ⟨[], x ++ ['/'], by rw [hx]; simp, .inr ⟨rfl, hdr⟩, .inr ⟨x, .inl rfl⟩, h1, h2⟩

/-! ### Documents -/

private theorem side_ok {ws : Char → Bool} {dir : Text} {test : Bool} {d : Doc} {r : Rec} (h : Shows d.root r) (s : Side)
    {x n : Text} (hx : (r.side s).filename = some x) (hu : Usable (strip ws x)) (hn : FileName (strip ws x) n) :
    ∃ d', moveSide ws dir test d s = .ok d' ∧ d'.filename = d.filename ∧
      Shows d'.root (if test then r else r.setSide s fun y => { y with filename := some (inDir dir n) }) := by
  have hg := (Verif.Props.HitaextFile.getters h ws s).1
  rw [hx] at hg
  unfold moveSide
  rw [hg]
  dsimp only
  rw [new_path dir hu hn]
  dsimp only
  cases test with
  | true => exact ⟨d, rfl, rfl, h⟩
  | false =>
    obtain ⟨r', h1, h2⟩ := change_filename h s (inDir dir n)
    exact ⟨{ d with root := r' }, h1, rfl, h2⟩

private theorem named_strip {ws : Char → Bool} {x : Text} (h : strip ws x ≠ []) : ∃ c ∈ x, ws c = false := by
  by_contra hn
  refine h ?_
  have hall : ∀ c ∈ x, ws c = true := fun c hc => by
    by_contra hw
    exact hn ⟨c, hc, by simpa using hw⟩
  unfold strip
  have : x.dropWhile ws = [] := by
    clear hn h
    induction x with
    | nil => rfl
    | cons c x ih => rw [List.dropWhile_cons, if_pos (hall c (by simp))]; exact ih fun d hd => hall d (by simp [hd])
  rw [this]
  rfl

/-- C68.  A document whose two file names are usable gets the file names in the new directory; everything else that it says
stays as it is.  With the option for a dry run it is read, but not changed. -/
theorem document_moved {ws : Char → Bool} {dir : Text} {root : Elem} {r : Rec} (h : Shows root r) (fn : Text)
    {x y m n : Text} (hx : r.source.filename = some x) (hy : r.target.filename = some y)
    (hux : Usable (strip ws x)) (huy : Usable (strip ws y)) (hm : FileName (strip ws x) m) (hn : FileName (strip ws y) n) :
    (∃ d, moveDoc ws dir false fn root = .ok d ∧ Shows d.root (renamed r (inDir dir m) (inDir dir n))) ∧
    (∃ d, moveDoc ws dir true fn root = .ok d) := by
  have hv : openFile ws fn root = .ok { root := root, filename := fn } := by
    unfold openFile
    rw [(Verif.Props.HitaextFile.validate_iff (d := { root := root, filename := fn }) h).2
      ⟨⟨x, hx, named_strip hux.1⟩, ⟨y, hy, named_strip huy.1⟩⟩]
  constructor
  · unfold moveDoc
    rw [hv]
    dsimp only
    obtain ⟨d1, h1, -, h3⟩ := side_ok (ws := ws) (dir := dir) (test := false) (d := { root := root, filename := fn }) h .source
      hx hux hm
    rw [h1]
    dsimp only
    obtain ⟨d2, k1, -, k3⟩ := side_ok (ws := ws) (dir := dir) (test := false) h3 .target hy huy hn
    exact ⟨d2, k1, k3⟩
  · unfold moveDoc
    rw [hv]
    dsimp only
    obtain ⟨d1, h1, -, h3⟩ := side_ok (ws := ws) (dir := dir) (test := true) (d := { root := root, filename := fn }) h .source
      hx hux hm
    rw [h1]
    dsimp only
    obtain ⟨d2, k1, -, k3⟩ := side_ok (ws := ws) (dir := dir) (test := true) h3 .target hy huy hn
    exact ⟨d2, k1⟩

/-- C68.  What is in the file afterwards: the same document with the new names, which can be read again. -/
theorem file_moved {ws : Char → Bool} {dir : Text} {root : Elem} {r : Rec} (h : Shows root r) (fn : Text)
    {x y m n : Text} (hx : r.source.filename = some x) (hy : r.target.filename = some y)
    (hux : Usable (strip ws x)) (huy : Usable (strip ws y)) (hm : FileName (strip ws x) m) (hn : FileName (strip ws y) n)
    (hm' : ∃ c ∈ inDir dir m, ws c = false) (hn' : ∃ c ∈ inDir dir n, ws c = false) (f : Files) (hf : f fn = some root) :
    ∃ g root', moveAll ws dir false [fn] f = (g, none) ∧ g fn = some root' ∧
      Shows root' (renamed r (inDir dir m) (inDir dir n)) ∧ openFile ws fn root' = .ok ⟨root', fn⟩ := by
  obtain ⟨⟨d, h1, h2⟩, -⟩ := document_moved (dir := dir) h fn hx hy hux huy hm hn
  have h3 := shows_reread h2
  have noE : ∀ z : Text, (∃ c ∈ z, ws c = false) → Pgc.noEmpty (some z) = some z := by
    rintro z ⟨c, hc, -⟩
    unfold Pgc.noEmpty
    rw [if_neg]
    intro he
    injection he with he
    rw [he] at hc
    cases hc
  have h4 : Shows (Pgc.reread d.root) (renamed r (inDir dir m) (inDir dir n)) := by
    have e1 := noE _ hm'
    have e2 := noE _ hn'
    unfold renamed at h3 ⊢
    rw [e1, e2] at h3
    exact h3
  refine ⟨fun g => if g = fn then some (Pgc.reread d.root) else f g, Pgc.reread d.root, ?_, by simp, h4, ?_⟩
  · simp only [moveAll, hf, h1]
    rfl
  · unfold openFile
    rw [(Verif.Props.HitaextFile.validate_iff (d := { root := Pgc.reread d.root, filename := fn }) h4).2
      ⟨⟨_, rfl, hm'⟩, ⟨_, rfl, hn'⟩⟩]

/-! ### The program -/

/-- C68.  A dry run changes no file. -/
theorem dry_run (ws : Char → Bool) (dir : Text) : ∀ (fns : List Text) (f : Files), (moveAll ws dir true fns f).1 = f
  | [], _ => rfl
  | fn :: fns, f => by
    unfold moveAll
    split
    · rfl
    · split
      · rfl
      · exact dry_run ws dir fns f

/-- What becomes of a file. -/
def Moved (ws : Char → Bool) (dir fn : Text) (before after : Option Elem) : Prop :=
  ∃ root d, before = some root ∧ moveDoc ws dir false fn root = .ok d ∧ after = some (Pgc.reread d.root)

/-- C68.  Each file given once: the program changes the files one after the other, until the first that cannot be read or
changed; that file and all others stay as they are. -/
theorem files_moved (ws : Char → Bool) (dir : Text) : ∀ (fns : List Text) (f : Files), fns.Nodup →
    ∃ done rest, fns = done ++ rest ∧
      (∀ fn ∈ done, Moved ws dir fn (f fn) ((moveAll ws dir false fns f).1 fn)) ∧
      (∀ fn, fn ∉ done → (moveAll ws dir false fns f).1 fn = f fn) ∧
      (rest = [] ↔ (moveAll ws dir false fns f).2 = none) ∧
      ∀ fn l, rest = fn :: l → ¬ ∃ a, Moved ws dir fn (f fn) a
  | [], f, _ => ⟨[], [], rfl, by simp, fun _ _ => rfl, by simp [moveAll], by simp⟩
  | fn :: fns, f, hnd => by
    rw [List.nodup_cons] at hnd
    unfold moveAll
    cases hf : f fn with
    | none =>
      refine ⟨[], fn :: fns, rfl, by simp, fun _ _ => rfl, by simp, ?_⟩
      rintro a l he ⟨b, root, d, h1, -⟩
      simp only [List.cons.injEq] at he
      rw [← he.1, hf] at h1
      cases h1
    | some root =>
      dsimp only
      cases hm : moveDoc ws dir false fn root with
      | error e =>
        refine ⟨[], fn :: fns, rfl, by simp, fun _ _ => rfl, by simp, ?_⟩
        rintro a l he ⟨b, root', d, h1, h2, -⟩
        simp only [List.cons.injEq] at he
        rw [← he.1, hf] at h1
        injection h1 with h1
        rw [← h1, ← he.1, hm] at h2
        cases h2
      | ok d =>
        dsimp only
        rw [if_neg (by decide)]
        obtain ⟨done, rest, h1, h2, h3, h4, h5⟩ := files_moved ws dir fns
          (fun g => if g = fn then some (Pgc.reread d.root) else f g) hnd.2
        have hne : ∀ g ∈ fns, g ≠ fn := fun g hg he => hnd.1 (he ▸ hg)
        have hdone : ∀ g ∈ done, g ∈ fns := fun g hg => by rw [h1]; exact List.mem_append.2 (.inl hg)
        refine ⟨fn :: done, rest, by rw [h1]; rfl, ?_, ?_, h4, ?_⟩
        · intro g hg
          rw [List.mem_cons] at hg
          rcases hg with rfl | hg
          · refine ⟨root, d, hf, hm, ?_⟩
            rw [h3 g fun hd => hne g (hdone g hd) rfl]
            simp
          · have := h2 g hg
            rw [if_neg (hne g (hdone g hg))] at this
            exact this
        · intro g hg
          rw [List.mem_cons, not_or] at hg
          rw [h3 g hg.2, if_neg hg.1]
        · intro g l he
          have := h5 g l he
          rw [if_neg (hne g (by rw [h1, he]; simp))] at this
          exact this

/-! ### Limits -/

/-- C68, limits.  A path that ends with a slash has no file name: without a new directory the file name of the document
becomes empty, and the document cannot be read any more. -/
theorem ruined {ws : Char → Bool} {root : Elem} {r : Rec} (h : Shows root r) (fn : Text)
    {x y n : Text} (hx : r.source.filename = some x) (hy : r.target.filename = some y)
    (hux : Usable (strip ws x)) (huy : Usable (strip ws y)) (hm : FileName (strip ws x) []) (hn : FileName (strip ws y) n)
    (f : Files) (hf : f fn = some root) :
    ∃ g root' e, moveAll ws [] false [fn] f = (g, none) ∧ g fn = some root' ∧ openFile ws fn root' = .error e := by
  obtain ⟨⟨d, h1, h2⟩, -⟩ := document_moved (dir := []) h fn hx hy hux huy hm hn
  have hbad : ∃ e, openFile ws fn (Pgc.reread d.root) = .error e := by
    refine (Verif.Props.HitaextFile.write_read (d := d) h2 fn).2 ?_
    rintro ⟨⟨z, hz, c, hc, -⟩, -⟩
    simp only [renamed, Option.some.injEq] at hz
    rw [← hz] at hc
    simp [inDir] at hc
  obtain ⟨e, he⟩ := hbad
  refine ⟨fun g => if g = fn then some (Pgc.reread d.root) else f g, _, e, ?_, by simp, he⟩
  simp only [moveAll, hf, h1]
  rfl

example : FileName "C:\\corpus\\a.xml".toList "a.xml".toList :=
  ⟨"C:".toList, "\\corpus\\".toList, rfl, .inl ⟨'C', by decide, rfl⟩, .inr ⟨"\\corpus".toList, .inr rfl⟩, by decide, by decide⟩

example : (newPath "texts".toList "C:\\corpus\\a.xml".toList).toOption = some "texts/a.xml".toList := by decide +kernel
example : (newPath "".toList "/home/me/a.xml".toList).toOption = some "a.xml".toList := by decide +kernel

/-- C68, limits.  Without a new directory a second run can do something else: a file name that looks like a drive loses it,
and a single capital raises an exception. -/
theorem not_again : (newPath [] "x/C:a".toList).toOption = some "C:a".toList ∧ (newPath [] "C:a".toList).toOption = some "a".toList ∧
    (newPath [] "x/A".toList).toOption = some "A".toList ∧ newPath [] "A".toList = .error .indexError := by
  refine ⟨?_, ?_, ?_, rfl⟩ <;> decide +kernel

/-- A document with two file names. -/
private def sample : Elem :=
  let side := fun (t : String) (x : Text) => Elem.mk t [] none none
    [.mk "filename" [] (some x) none [], .mk "render" [] none none [leaf "font", leaf "elements"]]
  .mk "hitaext" [] none none [side "from" "d/a.xml".toList, side "to" "D:b.xml".toList, leaf "alignment"]

example : Shows sample ⟨⟨some "d/a.xml".toList, none, []⟩, ⟨some "D:b.xml".toList, none, []⟩, none, []⟩ := by
  refine ⟨⟨⟨.mk "filename" [] (some "d/a.xml".toList) none [], by rfl, rfl⟩, ⟨leaf "elements", by rfl, rfl, rfl⟩⟩,
    ⟨⟨.mk "filename" [] (some "D:b.xml".toList) none [], by rfl, rfl⟩, ⟨leaf "elements", by rfl, rfl, rfl⟩⟩,
    ⟨leaf "alignment", by rfl, rfl, rfl⟩⟩

end Verif.Props.PtcChdir
