import Verif.Lemmas.PgcCopy

/-! C71: copying corpora. -/
namespace Verif.Props.PgcCp
open Verif Verif.Etree Verif.PgcCp Verif.Spec.PgcCp

variable {β κ : Type} {ps : Paths} {cd : Codec β κ} {o : Bool} {target : Text}

/-- C71.  Without --overwrite no file that exists is changed, also if the run stops with an exception. -/
theorem nothing_overwritten {disk d : Disk β} {ss : List Text} {ws : List (Option Warning)} {e : Option Err}
    (h : pgcCp ps cd false target disk ss = some (d, ws, e)) {n : Nat} {c : β} (hn : disk n = some c) : d n = some c := by
  unfold pgcCp at h
  split at h
  · cases h
  · have h := Option.some.inj h
    by_contra hd
    have : (copyAll ps cd false target disk ss).1 n ≠ disk n := by
      rw [h, hn]; exact hd
    obtain ⟨_, _, _, _, _, _, _, h5⟩ := copyAll_change this
    rw [h5 rfl] at hn
    cases hn

/-- C71.  Only files at the targets of sources that hold corpora are changed, and copying a source never changes the source
itself. -/
theorem only_targets {disk d : Disk β} {ss : List Text} {ws : List (Option Warning)} {e : Option Err}
    (h : pgcCp ps cd o target disk ss = some (d, ws, e)) {n : Nat} (hn : d n ≠ disk n) :
    ∃ a s b, ss = a ++ s :: b ∧ n = ps.place (targetOf ps target s) ∧ ps.place s ≠ n ∧
      ∃ x, Holds ps cd (copyAll ps cd o target disk a).1 s x := by
  unfold pgcCp at h
  split at h
  · cases h
  · have h := Option.some.inj h
    obtain ⟨a, s, b, e1, e2, e3, e4, _⟩ := copyAll_change (ps := ps) (cd := cd) (o := o) (target := target) (disk := disk)
      (ss := ss) (n := n) (by rw [h]; exact hn)
    exact ⟨a, s, b, e1, e2, e3, e4⟩

/-- C71.  In particular a single corpus is never changed by copying it. -/
theorem source_safe {disk d : Disk β} {s : Text} {ws : List (Option Warning)} {e : Option Err}
    (h : pgcCp ps cd o target disk [s] = some (d, ws, e)) : d (ps.place s) = disk (ps.place s) := by
  by_contra hn
  obtain ⟨a, s', b, e1, e2, e3, _⟩ := only_targets h hn
  have : s' = s := by
    have := congrArg (s' ∈ ·) e1
    simpa using this
  exact e3 (by rw [this])

/-- C71.  The target of a source: in the directory, under the base name of the source. -/
theorem target_in_directory (h : ps.isDir target = true) (s : Text) :
    targetOf ps target s = PosixPath.join target (PosixPath.basename s) := by
  unfold targetOf; rw [h]; rfl

/-- C71.  Several sources need a directory: otherwise nothing is done. -/
theorem needs_directory (h : ps.isDir target = false) {disk : Disk β} {ss : List Text} :
    pgcCp ps cd o target disk ss = none ↔ 2 ≤ ss.length := by
  unfold pgcCp
  rw [h]
  by_cases hl : 2 ≤ ss.length
  · have : ss.length > 1 := hl
    simp [hl, this]
  · have : ¬ ss.length > 1 := by omega
    simp only [hl, iff_false]
    simp [this]

private theorem copyOne_holds {disk : Disk β} {s : Text} {x : κ} {c : β} (hx : Holds ps cd disk s x)
    (hsep : ps.place s ≠ ps.place (targetOf ps target s)) (hop : Open ps (targetOf ps target s))
    (hfree : o = true ∨ disk (ps.place (targetOf ps target s)) = none) (hw : cd.write x (targetOf ps target s) = .ok (c, none)) :
    copyOne ps cd o target disk s = (fun n => if n = ps.place (targetOf ps target s) then some c else disk n, none, none) := by
  unfold copyOne
  rw [holds_exists hx, readSource_iff.2 hx]
  dsimp only
  have h1 : sameFile ps s (targetOf ps target s) = false := by
    unfold sameFile
    simp [hsep]
  rw [h1]
  have h2 : (pathExists ps disk (targetOf ps target s) && !o) = false := by
    rcases hfree with h | h
    · simp [h]
    · unfold pathExists
      rw [h, hop.1]
      simp
  rw [h2, writeTarget_ok hop hw]
  simp

private theorem copyOne_bad {disk : Disk β} {s : Text} (hx : ¬ ∃ x, Holds ps cd disk s x) :
    copyOne ps cd o target disk s = (disk, some (if pathExists ps disk s = true then .invalid else .missing), none) := by
  unfold copyOne
  cases h : pathExists ps disk s with
  | false => rfl
  | true =>
    cases hr : readSource ps cd disk s with
    | error e => rfl
    | ok x => exact absurd ⟨x, readSource_iff.1 hr⟩ hx

/-- C71.  Sources that do not exist or cannot be read are skipped with a warning; all others are copied as if they had not
been given. -/
theorem bad_skipped {disk d d' : Disk β} {a b : List Text} {s : Text} {wa ws : List (Option Warning)} {e : Option Err}
    (ha : copyAll ps cd o target disk a = (d, wa, none)) (hbad : ¬ ∃ x, Holds ps cd d s x) :
    copyAll ps cd o target disk (a ++ b) = (d', wa ++ ws, e) ↔
      copyAll ps cd o target disk (a ++ s :: b) =
        (d', wa ++ some (if pathExists ps d s = true then .invalid else .missing) :: ws, e) := by
  rw [copyAll_append, copyAll_append, ha]
  dsimp only
  rw [copyAll_cons, copyOne_bad hbad]
  dsimp only
  simp

private theorem imp_left {α δ : Type} {R S : α → δ → Prop} {l : List α} {m : List δ} (h : List.Forall₂ R l m)
    (hi : ∀ a b, a ∈ l → R a b → S a b) : List.Forall₂ S l m := by
  induction h with
  | nil => exact .nil
  | cons h _ ih => exact .cons (hi _ _ (by simp) h) (ih fun a b ha => hi a b (by simp [ha]))

/-- C71.  Sources whose targets are places of their own, that can be written and are free (or may be replaced), are all
copied: the target of each source that holds a corpus has what is written for that corpus; nothing else has changed; and the
warnings are exact. -/
theorem all_copied {disk : Disk β} {ss : List Text} (hdist : (ss.map fun s => ps.place (targetOf ps target s)).Nodup)
    (hsep : ∀ s ∈ ss, ∀ s' ∈ ss, ps.place s' ≠ ps.place (targetOf ps target s))
    (hopen : ∀ s ∈ ss, Open ps (targetOf ps target s) ∧ (o = true ∨ disk (ps.place (targetOf ps target s)) = none))
    (hw : ∀ s ∈ ss, ∀ x, Holds ps cd disk s x → ∃ c, cd.write x (targetOf ps target s) = .ok (c, none)) :
    ∃ d ws, copyAll ps cd o target disk ss = (d, ws, none) ∧
      (∀ s ∈ ss, ∀ x c, Holds ps cd disk s x → cd.write x (targetOf ps target s) = .ok (c, none) →
        d (ps.place (targetOf ps target s)) = some c) ∧
      (∀ n, (∀ s ∈ ss, (∃ x, Holds ps cd disk s x) → n ≠ ps.place (targetOf ps target s)) → d n = disk n) ∧
      List.Forall₂ (fun s w => (w = none ↔ ∃ x, Holds ps cd disk s x) ∧
        (w = some .missing ↔ pathExists ps disk s = false) ∧ w ≠ some .same ∧ w ≠ some .occupied) ss ws := by
  induction ss generalizing disk with
  | nil => exact ⟨disk, [], rfl, by simp, by simp, .nil⟩
  | cons s ss ih =>
    obtain ⟨hn, hdist⟩ := List.nodup_cons.1 hdist
    have hn' : ∀ s' ∈ ss, ps.place (targetOf ps target s') ≠ ps.place (targetOf ps target s) := by
      intro s' hs' he
      exact hn (List.mem_map.2 ⟨s', hs', he⟩)
    by_cases hx : ∃ x, Holds ps cd disk s x
    · obtain ⟨x, hx⟩ := hx
      obtain ⟨c, hc⟩ := hw s (by simp) x hx
      have h1 := copyOne_holds hx (hsep s (by simp) s (by simp)) (hopen s (by simp)).1 (hopen s (by simp)).2 hc
      rw [copyAll_cons, h1]
      dsimp only
      have hH : ∀ s' ∈ ss, ∀ y, Holds ps cd (fun n => if n = ps.place (targetOf ps target s) then some c else disk n) s' y ↔
          Holds ps cd disk s' y := by
        intro s' hs' y
        unfold Holds
        dsimp only
        rw [if_neg (hsep s (by simp) s' (by simp [hs']))]
      have hE : ∀ s' ∈ ss, pathExists ps (fun n => if n = ps.place (targetOf ps target s) then some c else disk n) s' =
          pathExists ps disk s' := by
        intro s' hs'
        unfold pathExists
        dsimp only
        rw [if_neg (hsep s (by simp) s' (by simp [hs']))]
      obtain ⟨d, ws, e1, e2, e3, e4⟩ := ih
        (disk := fun n => if n = ps.place (targetOf ps target s) then some c else disk n) hdist
        (fun a ha b hb => hsep a (by simp [ha]) b (by simp [hb]))
        (by
          intro s' hs'
          obtain ⟨p1, p2⟩ := hopen s' (by simp [hs'])
          refine ⟨p1, p2.imp id ?_⟩
          intro p2
          rw [if_neg (hn' s' hs')]
          exact p2)
        (by
          intro s' hs' y hy
          exact hw s' (by simp [hs']) y ((hH s' hs' y).1 hy))
      refine ⟨d, none :: ws, by rw [e1], ?_, ?_, ?_⟩
      · intro s' hs' y c' hy hc'
        rcases List.mem_cons.1 hs' with rfl | hs'
        · rw [e3 _ (fun s'' hs'' _ he => hn' s'' hs'' he.symm)]
          rw [if_pos rfl]
          have : y = x := by
            obtain ⟨-, c1, a1, a2⟩ := hy
            obtain ⟨-, c2, b1, b2⟩ := hx
            rw [a1] at b1
            obtain rfl := Option.some.inj b1
            rw [a2] at b2
            exact Except.ok.inj b2
          subst this
          rw [hc] at hc'
          have := Except.ok.inj hc'
          rw [(Prod.mk.inj this).1]
        · exact e2 s' hs' y c' ((hH s' hs' y).2 hy) hc'
      · intro n hall
        rw [e3 n ?_, if_neg (hall s (by simp) ⟨x, hx⟩)]
        intro s' hs' ⟨y, hy⟩
        exact hall s' (by simp [hs']) ⟨y, (hH s' hs' y).1 hy⟩
      · refine .cons ⟨by simp only [true_iff]; exact ⟨x, hx⟩, ?_, by simp, by simp⟩ ?_
        · rw [holds_exists hx]; simp
        · refine imp_left e4 ?_
          intro s' w hs' ⟨q1, q2, q3⟩
          refine ⟨q1.trans ?_, by rw [q2, hE s' hs'], q3⟩
          exact exists_congr fun y => hH s' hs' y
    · rw [copyAll_cons, copyOne_bad hx]
      dsimp only
      obtain ⟨d, ws, e1, e2, e3, e4⟩ := ih (disk := disk) hdist
        (fun a ha b hb => hsep a (by simp [ha]) b (by simp [hb]))
        (fun s' hs' => hopen s' (by simp [hs'])) (fun s' hs' => hw s' (by simp [hs']))
      refine ⟨d, _ :: ws, by rw [e1], ?_, ?_, .cons ⟨by simp [hx], ?_, ?_, ?_⟩ e4⟩
      · intro s' hs' y c' hy hc'
        rcases List.mem_cons.1 hs' with rfl | hs'
        · exact absurd ⟨y, hy⟩ hx
        · exact e2 s' hs' y c' hy hc'
      · intro n hall
        exact e3 n fun s' hs' => hall s' (by simp [hs'])
      · cases h : pathExists ps disk s <;> simp
      · split <;> simp
      · split <;> simp

/-- C71.  Two sources with one base name: the first one is kept, or with --overwrite the last one. -/
theorem same_name {disk : Disk β} {s s' : Text} {x x' : κ} {c c' : β} (hdir : ps.isDir target = true)
    (hb : PosixPath.basename s = PosixPath.basename s') (hx : Holds ps cd disk s x) (hx' : Holds ps cd disk s' x')
    (hop : Free ps disk (targetOf ps target s))
    (hc : cd.write x (targetOf ps target s) = .ok (c, none)) (hc' : cd.write x' (targetOf ps target s) = .ok (c', none)) :
    ∃ d ws, pgcCp ps cd o target disk [s, s'] = some (d, ws, none) ∧
      d (ps.place (targetOf ps target s)) = some (if o then c' else c) ∧
      ws = [none, if o then none else some .occupied] := by
  have ht : targetOf ps target s' = targetOf ps target s := by
    rw [target_in_directory hdir, target_in_directory hdir, hb]
  have hne : ∀ (s : Text) (x : κ), Holds ps cd disk s x → ps.place s ≠ ps.place (targetOf ps target s') := by
    rintro s x ⟨_, c, h, _⟩ he
    rw [he, ht, hop.2.2] at h
    cases h
  unfold pgcCp
  rw [hdir, if_neg (by simp), copyAll_cons, copyOne_holds hx (by rw [← ht]; exact hne s x hx) ⟨hop.1, hop.2.1⟩ (.inr hop.2.2) hc]
  dsimp only
  rw [copyAll_cons]
  have hx'' : Holds ps cd (fun n => if n = ps.place (targetOf ps target s) then some c else disk n) s' x' := by
    unfold Holds
    dsimp only
    rw [if_neg (by rw [← ht]; exact hne s' x' hx')]
    exact hx'
  cases o with
  | true =>
    rw [copyOne_holds hx'' (hne s' x' hx') (by rw [ht]; exact ⟨hop.1, hop.2.1⟩) (.inl rfl) (by rw [ht]; exact hc')]
    exact ⟨_, _, rfl, by rw [ht]; exact if_pos rfl, rfl⟩
  | false =>
    have : copyOne ps cd false target (fun n => if n = ps.place (targetOf ps target s) then some c else disk n) s' =
        ((fun n => if n = ps.place (targetOf ps target s) then some c else disk n), some .occupied, none) := by
      unfold copyOne
      rw [holds_exists hx'', readSource_iff.2 hx'']
      dsimp only
      have h1 : sameFile ps s' (targetOf ps target s') = false := by
        unfold sameFile
        simp [hne s' x' hx']
      have h2 : pathExists ps (fun n => if n = ps.place (targetOf ps target s) then some c else disk n)
          (targetOf ps target s') = true := by
        unfold pathExists
        dsimp only
        rw [ht, if_pos rfl]
        simp
      rw [h1, h2]
      simp
    rw [this]
    exact ⟨_, _, rfl, if_pos rfl, rfl⟩

private theorem mono {disk : Disk β} {ss : List Text} {n : Nat} {c : β} (h : disk n = some c) :
    (copyAll ps cd false target disk ss).1 n = some c := by
  by_contra hd
  obtain ⟨_, _, _, _, _, _, _, h5⟩ := copyAll_change (ps := ps) (cd := cd) (o := false) (target := target) (disk := disk)
    (ss := ss) (n := n) (by rw [h]; exact hd)
  rw [h5 rfl] at h
  cases h

private theorem mono_exists {disk : Disk β} {ss : List Text} {p : Text} (h : pathExists ps disk p = true) :
    pathExists ps (copyAll ps cd false target disk ss).1 p = true := by
  unfold pathExists at h ⊢
  cases hd : ps.isDir p with
  | true => rfl
  | false =>
    rw [hd, Bool.false_or] at h
    obtain ⟨c, hc⟩ := Option.isSome_iff_exists.1 h
    rw [mono hc]
    rfl

private theorem written_exists {disk d : Disk β} {s : Text} {x : κ} {w : Option Warning} (hx : Holds ps cd disk s x)
    (h : copyOne ps cd false target disk s = (d, w, none)) : pathExists ps d (targetOf ps target s) = true := by
  unfold copyOne at h
  rw [holds_exists hx, readSource_iff.2 hx] at h
  dsimp only at h
  rw [if_neg (by decide)] at h
  split at h
  · rename_i h1
    rw [← (Prod.mk.inj h).1]
    exact (Bool.and_eq_true_iff.1 h1).1
  · split at h
    · rename_i h1
      rw [← (Prod.mk.inj h).1]
      exact (Bool.and_eq_true_iff.1 h1).1
    · obtain ⟨e1, -, e2⟩ : _ ∧ _ ∧ _ := by simpa only [Prod.mk.injEq] using h
      unfold writeTarget at e1 e2
      cases hw : cd.write x (targetOf ps target s) with
      | error e => rw [hw] at e2; cases e2
      | ok r =>
        rw [hw] at e1 e2
        dsimp only at e1 e2
        split at e2
        · cases e2
        · rename_i h3
          rw [if_neg h3] at e1
          rw [← e1]
          unfold pathExists
          simp

private theorem copyOne_occupied {d : Disk β} {s : Text} (h : ∀ x, Holds ps cd d s x → pathExists ps d (targetOf ps target s) = true) :
    ∃ w, copyOne ps cd false target d s = (d, some w, none) := by
  by_cases hx : ∃ x, Holds ps cd d s x
  · obtain ⟨x, hx⟩ := hx
    unfold copyOne
    rw [holds_exists hx, readSource_iff.2 hx]
    dsimp only
    rw [if_neg (by decide), h x hx]
    split
    · exact ⟨_, rfl⟩
    · exact ⟨_, rfl⟩
  · exact ⟨_, copyOne_bad hx⟩

/-- C71.  Copying again without --overwrite changes nothing, if all sources existed and the first run finished. -/
theorem again {disk d : Disk β} {ss : List Text} {ws : List (Option Warning)}
    (hex : ∀ s ∈ ss, pathExists ps disk s = true) (h : pgcCp ps cd false target disk ss = some (d, ws, none)) :
    ∃ ws', pgcCp ps cd false target d ss = some (d, ws', none) ∧ ∀ w ∈ ws', w ≠ none := by
  unfold pgcCp at h ⊢
  split at h
  · cases h
  rename_i hc
  rw [if_neg hc]
  replace h := Option.some.inj h
  have key : ∀ s ∈ ss, ∀ x, Holds ps cd d s x → pathExists ps d (targetOf ps target s) = true := by
    intro s hs x hx
    obtain ⟨a, b, rfl⟩ := List.append_of_mem hs
    rw [copyAll_append] at h
    rcases ha : copyAll ps cd false target disk a with ⟨dm, wa, _ | e⟩
    · rw [ha] at h
      dsimp only at h
      rw [copyAll_cons] at h
      rcases h1 : copyOne ps cd false target dm s with ⟨d1, w, _ | e⟩
      · rw [h1] at h
        dsimp only at h
        have hxm : Holds ps cd dm s x := by
          obtain ⟨x1, c, x2, x3⟩ := hx
          have h0 := hex s hs
          unfold pathExists at h0
          rw [x1, Bool.false_or] at h0
          obtain ⟨c0, h0⟩ := Option.isSome_iff_exists.1 h0
          have h2 : dm (ps.place s) = some c0 := by
            have := mono (ps := ps) (cd := cd) (target := target) (ss := a) h0
            rw [ha] at this
            exact this
          have h3 : d (ps.place s) = some c0 := by
            have := mono (ps := ps) (cd := cd) (target := target) (ss := s :: b) h2
            rw [copyAll_cons, h1] at this
            rw [← (Prod.mk.inj h).1]
            exact this
          rw [h3] at x2
          obtain rfl := Option.some.inj x2
          exact ⟨x1, c0, h2, x3⟩
        have h4 := mono_exists (ps := ps) (cd := cd) (target := target) (ss := b) (written_exists hxm h1)
        rw [← (Prod.mk.inj h).1]
        exact h4
      · rw [h1] at h
        cases (Prod.mk.inj (Prod.mk.inj h).2).2
    · rw [ha] at h
      cases (Prod.mk.inj (Prod.mk.inj h).2).2
  clear hc
  revert key
  clear h hex
  intro key
  induction ss with
  | nil => exact ⟨[], rfl, by simp⟩
  | cons s ss ih =>
    obtain ⟨w, hw⟩ := copyOne_occupied (key s (by simp))
    obtain ⟨ws', h1, h2⟩ := ih fun s' hs' x hx => key s' (by simp [hs']) x hx
    refine ⟨some w :: ws', ?_, ?_⟩
    · rw [copyAll_cons, hw]
      dsimp only
      rw [Option.some.inj h1]
    · intro w' hw'
      rcases List.mem_cons.1 hw' with rfl | hw'
      · simp
      · exact h2 w' hw'

/-! ### The copy is the same corpus -/

variable {γ : Type}

private theorem sameBank_of {env : Pgc.Env γ} {s s' : Pgc.State γ} {stat : String → Option Nat} {ws : Char → Bool}
    (hI : ReadInv env s) (hc : Copyable stat ws s) {i i' : String} {b : Pgc.Bank γ} (hb : s.banks.get? (some i) = some b)
    (hu : Used s b) (h : Spec.Pgc.BankIs stat (world s) (formats s) s' (s.banks.keys.idxOf (some i)) i')
    (hback : ∀ k bk, s'.banks.get? k = some bk → ∃ n, Props.Corpus.Uses (world s) (corpus s).pairs n ∧
      bk.path = ((world s).path n).toList ∧ bk.format = some (formats s n)) :
    SameBank stat s s' i i' := by
  obtain ⟨bk, n, h1, h2, h3, h4⟩ := h
  obtain ⟨m, um, e1, e2⟩ := hback _ _ h1
  obtain ⟨b', u', p1, p2⟩ := uses_iff hI um
  obtain ⟨f, f1, -⟩ := hc.format b' u'
  have hp : Spec.SameFile stat (String.ofList b.path) (String.ofList bk.path) := by
    rw [(path_at hb).1] at h2
    have : (world s).path n = String.ofList bk.path := by rw [h3, String.ofList_toList]
    rwa [this] at h2
  refine ⟨b, bk, hb, h1, hp, ?_⟩
  rw [e2, p2, f1, Option.getD_some, ← f1]
  refine (hc.oneFormat b b' hu u' ?_).symm
  rw [← p1, ← String.ofList_toList (s := (world s).path m), ← e1]
  exact hp

/-- Reading resolves every path to a place. -/
theorem bankPath_some {fs : RelPath.FS} {cwd : List Text} (hcwd : Spec.RelPath.Place fs.link cwd)
    (hloops : ∀ q, (RelPath.locate fs cwd q).isSome) (p x : Text) :
    ∃ l, Spec.RelPath.Place fs.link l ∧ RelPath.bankPath fs cwd p x = some (Spec.RelPath.path l) := by
  have hreal : ∀ q, ∃ y, RelPath.realpath fs cwd q = some y := by
    intro q
    obtain ⟨l, hl⟩ := Option.isSome_iff_exists.1 (hloops q)
    exact ⟨_, by unfold RelPath.realpath; rw [hl]; rfl⟩
  unfold RelPath.bankPath
  split
  · obtain ⟨y, hy⟩ := hreal x
    obtain ⟨l, hl, rfl, -⟩ := Props.RelPath.realpath_place hcwd hy
    exact ⟨l, hl, hy⟩
  · obtain ⟨y, hy⟩ := hreal (PosixPath.join (PosixPath.dirname p) x)
    obtain ⟨l, hl, rfl, h2⟩ := Props.RelPath.realpath_place hcwd hy
    exact ⟨l, hl, by rw [hy]; exact h2 cwd⟩

/-- C71.  A corpus that was read, if it can be copied at all (`Copyable`), is written completely to whichever file, and that
file is read as the same corpus. -/
theorem copy_reads {xml : Xml β} (hxml : Lawful xml) {fs : RelPath.FS} {cwd : List Text} (hcwd : Spec.RelPath.Place fs.link cwd)
    (hloops : ∀ q, (RelPath.locate fs cwd q).isSome) {stat : String → Option Nat}
    {readAll : Text → Option String → Py (AD String γ)} {p q : Text} {c : β} {s : Pgc.State γ}
    (hr : (codec xml fs cwd stat readAll).read p c = .ok s) (hc : Copyable stat xml.ws s) :
    ∃ c' s', (codec xml fs cwd stat readAll).write s q = .ok (c', none) ∧
      (codec xml fs cwd stat readAll).read q c' = .ok s' ∧ SameCorpus stat s s' := by
  -- what was read
  have hparse : Pgc.parse ⟨xml.ws, fun x => (RelPath.bankPath fs cwd p x).getD x, readAll, fun p f _ => readAll p f⟩ .none
      (xml.parse c).1 = .ok s := by
    change readAt xml fs cwd readAll p c = .ok s at hr
    unfold readAt at hr
    split at hr
    · cases hr
    · split at hr
      · cases hr
      · rename_i h _ _
        rw [h, Except.ok.inj hr]
  have hI := readInv hparse fun e he => hxml.texts c e he
  -- the paths
  obtain ⟨ld, hld⟩ := Option.isSome_iff_exists.1 (hloops (PosixPath.dirname q))
  have hd : RelPath.realpath fs cwd (PosixPath.dirname q) = some (RelPath.render ld) := by
    unfold RelPath.realpath; rw [hld]; rfl
  have hfiles : ∀ b, Used s b →
      strip xml.ws ((RelPath.bankText fs cwd false q (String.ofList b.path).toList).getD []) ≠ [] ∧
      (fun x => (RelPath.bankPath fs cwd q x).getD x)
        (strip xml.ws ((RelPath.bankText fs cwd false q (String.ofList b.path).toList).getD [])) = b.path := by
    intro b hb
    obtain ⟨pp, hpp, i, hi, hbi⟩ := id hb
    obtain ⟨x, hx⟩ := hI.paths _ _ hbi
    obtain ⟨l, hl, hl'⟩ := bankPath_some hcwd hloops p x
    have hpath : b.path = Spec.RelPath.path l := by
      rw [hx]
      dsimp only
      rw [hl', Option.getD_some]
    have := Props.RelPath.files_lead_back (γ := γ) (fs := fs) (cwd := cwd) (cwd' := cwd)
      (env := ⟨xml.ws, fun x => (RelPath.bankPath fs cwd q x).getD x, readAll, fun p f _ => readAll p f⟩) (outf := q)
      (inf := q) (d := RelPath.render ld) (abs := false) hxml.dot hxml.slash hcwd hcwd hd hd
      (by intro x y h; dsimp only; rw [h]; rfl)
      (shown := fun p => (RelPath.bankText fs cwd false q p.toList).getD [])
      (by intro p; unfold RelPath.bankText; rw [hd]; rfl)
      (p := String.ofList b.path) (l := l) (by rw [String.toList_ofList]; exact hpath) hl (hc.names b l hb hpath)
    rw [String.toList_ofList] at this ⊢
    exact this
  have hw := writable_of (env' := ⟨xml.ws, fun x => (RelPath.bankPath fs cwd q x).getD x, readAll, fun p f _ => readAll p f⟩)
    (shown := fun p => (RelPath.bankText fs cwd false q p.toList).getD []) hI hc rfl hfiles
  obtain ⟨t, s', h1, h2, h3, h4⟩ := Props.Pgc.write_read_banks hw
  refine ⟨xml.write t, s', ?_, ?_, ?_⟩
  · change writeAt xml fs cwd stat s q = _
    unfold writeAt
    rw [complete_of hI hc, if_pos rfl, h1]
  · change readAt xml fs cwd readAll q (xml.write t) = _
    unfold readAt
    rw [hxml.reread, h2]
  · have hlen := h3.pairs.length_eq
    have hl : (corpus s).pairs.length = s.pairs.length := List.length_range
    refine ⟨h3.relations, ?_, ?_⟩
    · have hm := h3.metaIs
      change (match s.meta.map fun e => (⟨s.pairs.length, e⟩ : Corpus.Meta) with
        | some m => if m.elem.children ≠ [] then ∃ e, s'.meta = some e ∧ e = Pgc.reread m.elem else s'.meta = none
        | none => s'.meta = none) at hm
      cases he : s.meta with
      | none => rw [he] at hm; exact hm
      | some e =>
        rw [he] at hm
        dsimp only [Option.map_some] at hm
        split at hm
        · rename_i hne
          obtain ⟨e', h5, h6⟩ := hm
          rw [h5, h6, (hI.metaIs e he).2]
          simp [Option.filter, hne]
        · rename_i hne
          rw [hm]
          simp only [Option.filter, hne, decide_false]
          rfl
    · rw [List.forall₂_iff_get]
      refine ⟨by rw [← hl]; exact hlen, ?_⟩
      intro k hk hk'
      have hP := (List.forall₂_iff_get.1 h3.pairs).2 k (by rw [hl]; exact hk) hk'
      have hg : (corpus s).pairs.get ⟨k, by rw [hl]; exact hk⟩ = k := by
        change (List.range s.pairs.length)[k]'_ = k
        exact List.getElem_range _
      rw [hg, gp_at (List.getElem?_eq_getElem hk)] at hP
      have hmem : s.pairs.get ⟨k, hk⟩ ∈ s.pairs := List.get_mem _ _
      have hPI := hI.pairs _ hmem
      obtain ⟨b1, hb1⟩ := Option.isSome_iff_exists.1 hPI.banks.1
      obtain ⟨b2, hb2⟩ := Option.isSome_iff_exists.1 hPI.banks.2
      refine ⟨sameBank_of hI hc hb1 ⟨_, hmem, _, .inl rfl, hb1⟩ hP.source h4,
        sameBank_of hI hc hb2 ⟨_, hmem, _, .inr rfl, hb2⟩ hP.target h4, ⟨hP.sourceId, hP.targetId⟩, ?_, ?_⟩
      · have hm := hP.metaIs
        dsimp only at hm
        split at hm
        · rename_i hne
          refine hm.trans (Eq.trans ?_ (if_neg hne).symm)
          exact hPI.kept
        · rename_i hne
          exact hm.trans (if_pos (not_not.1 hne)).symm
      · obtain ⟨-, -, a3, a4⟩ := plainAlign_of hI hc hmem
        intro x y
        by_cases hxy : x = none ∨ y = none
        · rw [hP.only x y hxy, a4 x y hxy]
        · cases x with
          | none => simp at hxy
          | some a =>
            cases y with
            | none => simp at hxy
            | some b => rw [hP.align a b, a3 a b]; rfl

/-- C71.  Copying corpora into a directory (or one corpus to a file), if each target is a place of its own that can be written
and is free or may be replaced: the run ends without an exception, and each target then holds the same corpus as its source;
the sources, and all other files, are as they were. -/
theorem copies_read {xml : Xml β} (hxml : Lawful xml) {fs : RelPath.FS} {cwd : List Text}
    (hcwd : Spec.RelPath.Place fs.link cwd) (hloops : ∀ q, (RelPath.locate fs cwd q).isSome) {stat : String → Option Nat}
    {readAll : Text → Option String → Py (AD String γ)} {disk : Disk β} {ss : List Text}
    (hdir : ps.isDir target = true ∨ ss.length ≤ 1)
    (hdist : (ss.map fun s => ps.place (targetOf ps target s)).Nodup)
    (hsep : ∀ s ∈ ss, ∀ s' ∈ ss, ps.place s' ≠ ps.place (targetOf ps target s))
    (hopen : ∀ s ∈ ss, Open ps (targetOf ps target s) ∧ (o = true ∨ disk (ps.place (targetOf ps target s)) = none))
    (hcopy : ∀ s ∈ ss, ∀ x, Holds ps (codec xml fs cwd stat readAll) disk s x → Copyable stat xml.ws x) :
    ∃ d ws, pgcCp ps (codec xml fs cwd stat readAll) o target disk ss = some (d, ws, none) ∧
      (∀ s ∈ ss, ∀ x, Holds ps (codec xml fs cwd stat readAll) disk s x → Holds ps (codec xml fs cwd stat readAll) d s x ∧
        ∃ x', Holds ps (codec xml fs cwd stat readAll) d (targetOf ps target s) x' ∧ SameCorpus stat x x') ∧
      (∀ n, (∀ s ∈ ss, n ≠ ps.place (targetOf ps target s)) → d n = disk n) ∧
      List.Forall₂ (fun s w => w = none ↔ ∃ x, Holds ps (codec xml fs cwd stat readAll) disk s x) ss ws := by
  have hcr : ∀ s ∈ ss, ∀ x, Holds ps (codec xml fs cwd stat readAll) disk s x →
      ∃ c x', (codec xml fs cwd stat readAll).write x (targetOf ps target s) = .ok (c, none) ∧
        (codec xml fs cwd stat readAll).read (targetOf ps target s) c = .ok x' ∧ SameCorpus stat x x' := by
    intro s hs x hx
    obtain ⟨-, c, -, hc⟩ := id hx
    exact copy_reads hxml hcwd hloops hc (hcopy s hs x hx)
  obtain ⟨d, ws, h1, h2, h3, h4⟩ := all_copied (ps := ps) (cd := codec xml fs cwd stat readAll) (o := o) (target := target)
    hdist hsep hopen (by
      intro s hs x hx
      obtain ⟨c, x', e, -⟩ := hcr s hs x hx
      exact ⟨c, e⟩)
  refine ⟨d, ws, ?_, ?_, fun n hn => h3 n fun s hs _ => hn s hs, h4.imp fun _ _ h => h.1⟩
  · unfold pgcCp
    rw [if_neg ?_, h1]
    rcases hdir with h | h
    · simp [h]
    · simp [Nat.not_lt.2 h]
  · intro s hs x hx
    refine ⟨?_, ?_⟩
    · obtain ⟨a, c, b1, b2⟩ := id hx
      exact ⟨a, c, by rw [h3 _ fun s' hs' _ => hsep s' hs' s hs]; exact b1, b2⟩
    · obtain ⟨c, x', e1, e2, e3⟩ := hcr s hs x hx
      exact ⟨x', ⟨(hopen s hs).1.1, c, h2 s hs x c hx e1, e2⟩, e3⟩

/-! ### Examples and limits -/

/-- An XML library: a file holds an element, or is torn. -/
def sampleXml : Xml (Option Elem) where
  ws c := c = ' ' || c = '\n'
  parse c := match c with
    | some e => (Pgc.events (Pgc.reread e), none)
    | none => ([], some .valueError)
  write e := some e
  torn _ := none

private theorem noEmpty_noEmpty (x : Option Text) : Pgc.noEmpty (Pgc.noEmpty x) = Pgc.noEmpty x := by
  unfold Pgc.noEmpty
  by_cases h : x = some []
  · simp [h]
  · simp [h]

mutual
private theorem reread_reread : ∀ e : Elem, Pgc.reread (Pgc.reread e) = Pgc.reread e
  | .mk t a x l c => by
    simp only [Pgc.reread, noEmpty_noEmpty, rereadList_rereadList c]
private theorem rereadList_rereadList : ∀ l : List Elem, Pgc.rereadList (Pgc.rereadList l) = Pgc.rereadList l
  | [] => rfl
  | e :: l => by simp only [Pgc.rereadList, reread_reread e, rereadList_rereadList l]
end

mutual
private theorem events_reread : ∀ e x : Elem, Pgc.Event.stop x ∈ Pgc.events (Pgc.reread e) → Pgc.reread x = x
  | .mk t a y l c, x, h => by
    simp only [Pgc.reread, Pgc.events, List.mem_cons, List.mem_append, List.not_mem_nil, or_false, reduceCtorEq, false_or,
      Pgc.Event.stop.injEq] at h
    rcases h with h | h
    · exact eventsList_reread c x h
    · subst h
      have := reread_reread (.mk t a y l c)
      simpa only [Pgc.reread] using this
private theorem eventsList_reread : ∀ (l : List Elem) (x : Elem), Pgc.Event.stop x ∈ Pgc.eventsList (Pgc.rereadList l) →
    Pgc.reread x = x
  | [], x, h => by simp [Pgc.rereadList, Pgc.eventsList] at h
  | e :: l, x, h => by
    simp only [Pgc.rereadList, Pgc.eventsList, List.mem_append] at h
    rcases h with h | h
    · exact events_reread e x h
    · exact eventsList_reread l x h
end

theorem sample_lawful : Lawful sampleXml where
  reread t := rfl
  texts c e h := by
    cases c with
    | none => cases h
    | some c => exact events_reread c e h
  dot := rfl
  slash := rfl

/-- A file system without links. -/
def sampleFS : RelPath.FS := ⟨fun _ => none, 0⟩

/-- No path leads into a loop. -/
theorem sample_loops (cwd : List Text) (q : Text) : (RelPath.locate sampleFS cwd q).isSome := by
  unfold RelPath.locate
  have : ∀ (l : List Text) (d : List Text), (l.foldlM (RelPath.enter sampleFS.link sampleFS.depth) d).isSome := by
    intro l
    induction l with
    | nil => intro d; rfl
    | cons n l ih =>
      intro d
      rw [List.foldlM_cons]
      unfold RelPath.enter
      split
      · exact ih _
      · split
        · exact ih _
        · exact ih _
  exact this _ _

/-- The working directory /d. -/
def sampleCwd : List Text := ["d".toList]

/-- It is a place. -/
theorem sample_place : Spec.RelPath.Place sampleFS.link sampleCwd := by
  intro l1 n l2 h
  have : n = "d".toList := by
    have h' := congrArg (n ∈ ·) h
    simpa [sampleCwd] using h'
  subst this
  exact ⟨⟨by decide, by decide⟩, by decide, by decide, rfl⟩

/-- A corpus file: two banks, one of them in another directory; a relation; a graph pair with metadata and a node pair with
these attributes. -/
def sampleFile (format : AD String String) (a : AD String String) : Elem := .mk "parallel_graph_corpus" [] none none
  [.mk "graphbanks" [] none none [
      .mk "file" (("id", "1") :: format) (some " x.xml\n".toList) none [],
      .mk "file" (("id", "2") :: format) (some "../y/y.xml".toList) none []],
    .mk "node_relations" [] none none [.mk "relation" [] (some "equals".toList) none []],
    .mk "aligned_graphs" [] none none [Props.Pgc.samplePair "1" "2" "s" "t" [
      .mk "graph_meta_data" [] none none [.mk "note" [] (some "hi".toList) none []],
      .mk "node_pair" a none none []]]]

/-- All attributes of the node pair. -/
def sampleNodes : AD String String := [("from_node_id", "n"), ("to_node_id", "m"), ("relation", "equals")]

/-- The file with all attributes. -/
def sampleGood : Elem := sampleFile [("format", "graphml")] sampleNodes

/-- Reading and writing; graphs are their ids; banks exist. -/
def sampleCodec : Codec (Option Elem) (Pgc.State String) :=
  codec sampleXml sampleFS sampleCwd (fun p => if p = "/d/x.xml" then some 1 else some 2) fun _ _ => .ok []

/-- `a.pgc` and `b.pgc` are files, `out` is a directory. -/
def samplePaths : Paths where
  place p := if p = "a.pgc".toList then 0 else if p = "out/a.pgc".toList then 1 else if p = "b.pgc".toList then 2
    else if p = "out/b.pgc".toList then 3 else 4
  isDir p := p = "out".toList
  canOpen _ := true

/-- The disk with these contents of `a.pgc` and `b.pgc`. -/
def sampleDisk (a b : Option (Option Elem)) : Disk (Option Elem) := fun n => if n = 0 then a else if n = 2 then b else none

private def banksOf (s : Pgc.State String) : List (Option String × List Char × Option String) :=
  s.banks.map fun b => (b.1, b.2.path, b.2.format)

private def pairsOf (s : Pgc.State String) : List (String × String × List (String × Nat)) :=
  s.pairs.map fun p => (p.sourceBank, p.targetBank, p.meta.children.map fun e => (e.tag, e.children.length))

private def metaOf (s : Pgc.State String) : Option String := s.meta.map fun e => e.tag

private def alignOf (s : Pgc.State String) : List (Option (List ((Option String × Option String) × Option String))) :=
  s.pairs.map fun p => (GraphPair.alignments p.align none).toOption

set_option synthInstance.maxSize 500 in
set_option synthInstance.maxHeartbeats 100000 in
private theorem sample_read : (sampleCodec.read "a.pgc".toList (some sampleGood)).map banksOf =
      .ok [(some "1", "/d/x.xml".toList, some "graphml"), (some "2", "/y/y.xml".toList, some "graphml")] ∧
    (sampleCodec.read "a.pgc".toList (some sampleGood)).map pairsOf = .ok [("1", "2", [("note", 0)])] ∧
    (sampleCodec.read "a.pgc".toList (some sampleGood)).map metaOf = .ok none ∧
    (sampleCodec.read "a.pgc".toList (some sampleGood)).map alignOf = .ok [some [((some "n", some "m"), some "equals")]] := by
  refine ⟨?_, ?_, ?_, ?_⟩ <;> decide +kernel

/-- Names without white space. -/
theorem noBlank_path {ws : Char → Bool} {l : List Text} (h : ∀ c ∈ Spec.RelPath.path l, ws c = false) :
    Spec.RelPath.NoBlankEnds ws l := by
  have key : ∀ n ∈ l, ∀ c ∈ n, ws c = false := by
    intro n hn c hc
    apply h
    unfold Spec.RelPath.path
    rw [if_neg (List.ne_nil_of_mem hn)]
    exact List.mem_flatMap.2 ⟨n, hn, by simp [hc]⟩
  intro n hn
  exact ⟨fun c hc => key n hn c (List.mem_of_head? hc), fun c hc => key n hn c (List.mem_of_getLast? hc)⟩

/-- Elements without children, with other tags. -/
theorem foreign_of : ∀ (l : List Elem), (∀ e ∈ l, e.tag ∉ Spec.Pgc.tags ∧ e.children.length = 0) → Spec.Pgc.ForeignList l
  | [], _ => trivial
  | .mk t a x y c :: l, h => by
    obtain ⟨h1, h2⟩ := h _ (List.mem_cons_self)
    refine ⟨⟨h1, ?_⟩, foreign_of l fun e he => h e (by simp [he])⟩
    have : c = [] := List.length_eq_zero_iff.1 h2
    rw [this]
    trivial

private theorem sample_copyable {s : Pgc.State String} (hr : sampleCodec.read "a.pgc".toList (some sampleGood) = .ok s) :
    Copyable (fun p => if p = "/d/x.xml" then some 1 else some 2) sampleXml.ws s := by
  obtain ⟨h1, h2, h3, h4⟩ := sample_read
  rw [hr] at h1 h2 h3 h4
  replace h1 : (s.banks.map fun b => (b.1, b.2.path, b.2.format)) = _ := Except.ok.inj h1
  replace h2 : (s.pairs.map fun p => (p.sourceBank, p.targetBank, p.meta.children.map fun e => (e.tag, e.children.length))) = _ :=
    Except.ok.inj h2
  replace h3 : (s.meta.map fun e => e.tag) = none := Except.ok.inj h3
  replace h4 : (s.pairs.map fun p => (GraphPair.alignments p.align none).toOption) = _ := Except.ok.inj h4
  have hparse : ∃ env : Pgc.Env String, env.ws = sampleXml.ws ∧
      Pgc.parse env .none (sampleXml.parse (some sampleGood)).1 = .ok s := by
    change readAt sampleXml sampleFS sampleCwd _ "a.pgc".toList (some sampleGood) = .ok s at hr
    unfold readAt at hr
    split at hr
    · cases hr
    · rename_i h
      exact ⟨_, rfl, h.trans hr⟩
  obtain ⟨env, hws, hparse⟩ := hparse
  have hI := readInv hparse fun e he => sample_lawful.texts _ e he
  have hrel : s.rels.Perm (["equals"]) ∧ s.rels.Pairwise (· ≤ ·) := by
    have he : ∃ pre e post, (sampleXml.parse (some sampleGood)).1 = pre ++ Pgc.Event.stop e :: post ∧ e.tag = "node_relations" ∧
        (∀ x, Pgc.Event.stop x ∈ post → x.tag ≠ "relation") ∧ Props.Pgc.relationTexts sampleXml.ws pre = ["equals"] := by
      refine ⟨(sampleXml.parse (some sampleGood)).1.take 10,
        .mk "node_relations" [] none none [.mk "relation" [] (some "equals".toList) none []],
        (sampleXml.parse (some sampleGood)).1.drop 11, rfl, rfl, ?_, by decide +kernel⟩
      intro x hx
      have : ((sampleXml.parse (some sampleGood)).1.drop 11).all (fun ev => match ev with
        | .stop x => x.tag ≠ "relation"
        | .start _ => true) = true := by decide +kernel
      simpa using List.all_eq_true.1 this _ hx
    obtain ⟨pre, e, post, e1, e2, e3, e4⟩ := he
    rw [e1] at hparse
    have := Props.Pgc.relations_as_declared e2 e3 hparse
    rwa [hws, e4] at this
  have hbank : ∀ k b, s.banks.get? k = some b → b.format = some "graphml" ∧
      (b.path = "/d/x.xml".toList ∨ b.path = "/y/y.xml".toList) := by
    intro k b hb
    have hm := List.mem_map_of_mem (f := fun b : Option String × Pgc.Bank String => (b.1, b.2.path, b.2.format)) (AD.mem_of_get? hb)
    rw [h1] at hm
    simp only [List.mem_cons, Prod.mk.injEq, List.not_mem_nil, or_false] at hm
    rcases hm with ⟨_, a, b⟩ | ⟨_, a, b⟩
    · exact ⟨b, .inl a⟩
    · exact ⟨b, .inr a⟩
  have hused : ∀ b, Used s b → b.format = some "graphml" ∧ (b.path = "/d/x.xml".toList ∨ b.path = "/y/y.xml".toList) := by
    rintro b ⟨_, _, _, _, hb⟩
    exact hbank _ _ hb
  refine ⟨?_, ?_, ?_, ?_, hrel.2, ?_, ?_, ?_, ?_⟩
  · intro b hb
    exact ⟨_, (hused b hb).1, by decide⟩
  · intro b b' hb hb' _
    rw [(hused b hb).1, (hused b' hb').1]
  · intro b b' _ _
    right
    constructor <;> split <;> rfl
  · intro p hp x y r hxy
    obtain ⟨M, m1, -⟩ := (hI.pairs p hp).align
    obtain ⟨l, e1, -, -, e4⟩ := m1.all
    have hm := List.mem_map_of_mem (f := fun p : Pgc.PPair String => (GraphPair.alignments p.align none).toOption) hp
    rw [h4, show GraphPair.alignments p.align none = .ok l from e1] at hm
    have hl : l = [((some "n", some "m"), some "equals")] := by simpa [Except.toOption] using hm
    rw [m1.get] at hxy
    have := (e4 _ _ _).2 (Except.ok.inj hxy)
    rw [hl] at this
    simp only [List.mem_cons, Prod.mk.injEq, List.not_mem_nil, or_false] at this
    obtain ⟨⟨rfl, rfl⟩, rfl⟩ := this
    exact ⟨rfl, rfl, rfl⟩
  · intro hm
    have := hrel.1.mem_iff.1 hm
    simp at this
  · intro p hp
    have hm := List.mem_map_of_mem (f := fun p : Pgc.PPair String =>
      (p.sourceBank, p.targetBank, p.meta.children.map fun e => (e.tag, e.children.length))) hp
    rw [h2] at hm
    simp only [List.mem_cons, Prod.mk.injEq, List.not_mem_nil, or_false] at hm
    apply foreign_of
    intro e he
    have := List.mem_map_of_mem (f := fun e : Elem => (e.tag, e.children.length)) he
    rw [hm.2.2] at this
    simp only [List.mem_cons, Prod.mk.injEq, List.not_mem_nil, or_false] at this
    rw [this.1]
    exact ⟨by decide, this.2⟩
  · intro e he
    rw [he] at h3
    cases h3
  · intro b l hb hl
    apply noBlank_path
    rw [← hl]
    rcases (hused b hb).2 with h | h
    · rw [h]; decide +kernel
    · rw [h]; decide +kernel

/-- The run `pgc_cp.py a.pgc b.pgc out`, with these contents. -/
def sampleRun (a b : Option (Option Elem)) : Option (Disk (Option Elem) × List (Option Warning) × Option Err) :=
  pgcCp samplePaths sampleCodec false "out".toList (sampleDisk a b) ["a.pgc".toList, "b.pgc".toList]

-- the conditions of `copies_read` are met
example : ∃ d ws, sampleRun (some (some sampleGood)) (some none) = some (d, ws, none) ∧
    ∃ x x', Holds samplePaths sampleCodec d "a.pgc".toList x ∧ Holds samplePaths sampleCodec d "out/a.pgc".toList x' ∧
      x.pairs ≠ [] ∧ SameCorpus (fun p => if p = "/d/x.xml" then some 1 else some 2) x x' := by
  have hread : ∃ s, sampleCodec.read "a.pgc".toList (some sampleGood) = .ok s ∧ s.pairs ≠ [] := by
    obtain ⟨-, h2, -⟩ := sample_read
    cases hr : sampleCodec.read "a.pgc".toList (some sampleGood) with
    | error e => rw [hr] at h2; cases h2
    | ok s =>
      rw [hr] at h2
      replace h2 : pairsOf s = _ := Except.ok.inj h2
      unfold pairsOf at h2
      refine ⟨s, rfl, ?_⟩
      intro hn
      rw [hn] at h2
      cases h2
  obtain ⟨s, hr, hne⟩ := hread
  have hholds : Holds samplePaths sampleCodec (sampleDisk (some (some sampleGood)) (some none)) "a.pgc".toList s :=
    ⟨by decide +kernel, _, rfl, hr⟩
  obtain ⟨d, ws, h1, h2, -⟩ := copies_read (ps := samplePaths) (o := false) (target := "out".toList)
    (disk := sampleDisk (some (some sampleGood)) (some none)) (ss := ["a.pgc".toList, "b.pgc".toList]) sample_lawful
    (fs := sampleFS) (cwd := sampleCwd) sample_place (sample_loops _)
    (stat := fun p => if p = "/d/x.xml" then some 1 else some 2) (readAll := fun _ _ => .ok []) (.inl (by decide +kernel))
    (by decide +kernel) (by decide +kernel) (by
      intro s hs
      simp only [List.mem_cons, List.not_mem_nil, or_false] at hs
      rcases hs with rfl | rfl
      · exact ⟨⟨by decide +kernel, rfl⟩, .inr rfl⟩
      · exact ⟨⟨by decide +kernel, rfl⟩, .inr rfl⟩) (by
      intro t ht x hx
      simp only [List.mem_cons, List.not_mem_nil, or_false] at ht
      rcases ht with rfl | rfl
      · obtain ⟨-, c, h1, h2⟩ := hx
        obtain rfl := Option.some.inj (h1 : some (some sampleGood) = some c)
        exact sample_copyable h2
      · obtain ⟨-, c, h1, h2⟩ := hx
        obtain rfl := Option.some.inj (h1 : some none = some c)
        cases h2)
  obtain ⟨p1, x', p2, p3⟩ := h2 "a.pgc".toList (by simp) s hholds
  exact ⟨d, ws, h1, s, x', p1, p2, hne, p3⟩

private def left (r : Option (Disk (Option Elem) × List (Option Warning) × Option Err)) (n : Nat) : Bool × Bool :=
  match r with
  | none => (false, false)
  | some r => match r.1 n with
    | none => (false, false)
    | some none => (true, false)
    | some (some _) => (true, true)

private def ended (r : Option (Disk (Option Elem) × List (Option Warning) × Option Err)) :
    Option (List (Option Warning) × Option Err) := r.map fun r => r.2

/-- Limits.  A corpus that can be read but not written, because an attribute is missing, is not skipped: a torn file is left
as its target, and the sources after it are not copied. -/
theorem torn_target :
    ended (sampleRun (some (some (sampleFile [("format", "graphml")] [("from_node_id", "n"), ("to_node_id", "m")])))
      (some (some sampleGood))) = some ([none], some .typeError) ∧
    left (sampleRun (some (some (sampleFile [("format", "graphml")] [("from_node_id", "n"), ("to_node_id", "m")])))
      (some (some sampleGood))) 1 = (true, false) ∧
    left (sampleRun (some (some (sampleFile [("format", "graphml")] [("from_node_id", "n"), ("to_node_id", "m")])))
      (some (some sampleGood))) 3 = (false, false) := by
  refine ⟨?_, ?_, ?_⟩ <;> decide +kernel

/-- Limits.  If the files of its banks do not exist then a corpus can be read but not written: the run stops. -/
theorem missing_banks :
    ended (pgcCp samplePaths (codec sampleXml sampleFS sampleCwd (fun _ => none)
      fun _ _ => (.ok [] : Py (AD String String))) false "out".toList
      (sampleDisk (some (some sampleGood)) (some (some sampleGood))) ["a.pgc".toList, "b.pgc".toList]) =
      some ([none], some .osError) := by
  decide +kernel

-- a file that is not a corpus is skipped, also if it comes first
example : ended (sampleRun (some none) (some (some sampleGood))) = some ([some .invalid, none], none) ∧
    left (sampleRun (some none) (some (some sampleGood))) 3 = (true, true) ∧
    ended (sampleRun none (some (some sampleGood))) = some ([some .missing, none], none) := by
  refine ⟨?_, ?_, ?_⟩ <;> decide +kernel

end Verif.Props.PgcCp
