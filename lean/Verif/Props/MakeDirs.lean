import Verif.Lemmas.MakeDirs

/-! C89: making directories. -/
namespace Verif.Props.MakeDirs
open Verif Verif.Etree Verif.RelPath Verif.MakeDirs Verif.Spec.MakeDirs

/-- What resolution of paths, of which the other theorems speak, means: names lead to the place, and conversely it finds the place to
which they lead, if links may be nested deep enough. -/
theorem resolves (d : Disk) (cwd : List Text) (p : Text) (r : List Text) :
    (walk d (start cwd p) (names p) = some r → Leads d (if p.head? = some '/' then [] else cwd) (names p) r) ∧
    (Leads d (if p.head? = some '/' then [] else cwd) (names p) r →
      ∃ m, ∀ d' : Disk, d'.node = d.node → m ≤ d'.depth → walk d' (start cwd p) (names p) = some r) := by
  have hs : start cwd p = if p.head? = some '/' then [] else cwd := by simp [start, isAbs]
  rw [hs]
  refine ⟨fun h => leads_fold (go_leads d.depth) h, fun h => ?_⟩
  obtain ⟨m, hm⟩ := leads_go h
  exact ⟨m, fun d' hd h' => hm d' hd d'.depth h'⟩

/-- Whatever the path and the disk are, nothing is lost or changed: there are at most new directories where nothing was. -/
theorem grown (limit : Nat) (d : Disk) (cwd : List Text) (p : Text) : Grown d (makedirs limit d cwd p).1 := by
  have h := osMakedirs_grown limit d cwd p
  unfold makedirs
  split
  · rename_i d' heq; rw [heq] at h; exact h
  · rename_i d' _ _ heq; rw [heq] at h; exact h

/-- A path that leads to something - a directory, but also a file - changes nothing and raises nothing. -/
theorem present {limit : Nat} (hl : 0 < limit) {d : Disk} {cwd : List Text} {p : Text} {c : List Text}
    (hw : walk d (start cwd p) (names p) = some c) : makedirs limit d cwd p = (d, false) := by
  obtain ⟨m, rfl⟩ : ∃ m, limit = m + 1 := ⟨limit - 1, by omega⟩
  obtain ⟨f, h1, h2⟩ := osMakedirs_present (limit := m) hw
  unfold makedirs
  rw [h1]
  cases f with
  | recursion => exact absurd rfl h2
  | present => rfl
  | other => rfl

/-- What is made: let a path begin with names that lead to the place `cur`, and go on with names `b`, the first of which is not there.
No exception is raised (there are at most as many names in `b` as calls may be nested); directories are made along `b` as far as `cur`
is a directory and entries can be made, and nothing else changes. -/
theorem made {d : Disk} (hc : Closed d) {cwd a b cur : List Text} {p : Text} (hp : names p = a ++ b)
    (ha : walk d (start cwd p) a = some cur) (hb : ∀ n ∈ b, Plain n) {n : Text} (hn : b.head? = some n)
    (habs : d.node (cur ++ [n]) = none) {limit : Nat} (hl : b.length ≤ limit) :
    ∃ d' k, makedirs limit d cwd p = (d', false) ∧ With d cur b k d' ∧ k ≤ b.length ∧ (0 < k → d.node cur = some .dir) ∧
      (∀ i < k, d.may (cur ++ b.take i) = true) ∧
      (k < b.length → d.node cur = some .dir → d.may (cur ++ b.take k) = false) := by
  obtain ⟨d', f, k, h1, h2, h3, h4, h5, h6, h7⟩ := makes hc b hp ha (by rintro rfl; cases hn) hl hb (by
    intro m hm _
    rw [hn] at hm
    cases hm
    exact habs)
  refine ⟨d', k, ?_, h7, h2, h3, h4, fun hk => (h5 hk).1⟩
  unfold makedirs
  rw [h1]
  rcases Nat.lt_or_ge k b.length with hk | hk
  · rw [(h5 hk).2]
  · rw [h6 (by omega)]

/-- If entries can be made everywhere, the path leads to a directory afterwards. -/
theorem success {d : Disk} (hc : Closed d) {cwd a b cur : List Text} {p : Text} (hp : names p = a ++ b)
    (ha : walk d (start cwd p) a = some cur) (hb : ∀ n ∈ b, Plain n) {n : Text} (hn : b.head? = some n)
    (habs : d.node (cur ++ [n]) = none) {limit : Nat} (hl : b.length ≤ limit) (hdir : d.node cur = some .dir)
    (hmay : ∀ i < b.length, d.may (cur ++ b.take i) = true) :
    ∃ d', makedirs limit d cwd p = (d', false) ∧ With d cur b b.length d' ∧ walk d' (start cwd p) (names p) = some (cur ++ b) ∧
      d'.node (cur ++ b) = some .dir := by
  obtain ⟨d', k, h1, h2, h3, h4, h5, h6⟩ := made hc hp ha hb hn habs hl
  obtain rfl : k = b.length := by
    by_contra hk
    have := h6 (by omega) hdir
    rw [hmay k (by omega)] at this
    cases this
  have hg := grown limit d cwd p
  rw [h1] at hg
  have hdirs : ∀ i ≤ b.length, d'.node (cur ++ b.take i) = some .dir := by
    intro i hi
    rcases i with _ | i
    · rw [List.take_zero, List.append_nil]
      exact hg.keeps hdir
    · rw [h2.2.2, if_pos ⟨i, by omega, rfl⟩]
  refine ⟨d', h1, h2, ?_, ?_⟩
  · rw [hp, walk_append, walk_grown hg ha, Option.bind_some]
    exact walk_down hb hdirs
  · have := hdirs b.length (le_refl _)
    rwa [List.take_length] at this

/-- Failures are not noticed: if the path goes on where it cannot - below a file, in a directory where no entries can be made, or after
a link that leads nowhere - nothing is made and nothing is raised. -/
theorem unnoticed {d : Disk} {cwd a b cur : List Text} {p : Text} (hp : names p = a ++ b) (ha : walk d (start cwd p) a = some cur)
    (hb : ∀ n ∈ b, Plain n) {n : Text} (hn : b.head? = some n) (hnone : walk d cur [n] = none)
    (hno : d.node cur ≠ some .dir ∨ d.may cur = false ∨ d.node (cur ++ [n]) ≠ none) {limit : Nat} (hl : b.length ≤ limit) :
    makedirs limit d cwd p = (d, false) := by
  obtain ⟨f, h1, h2⟩ := blocked (d := d) (cwd := cwd) (a := a) (cur := cur) b (p := p) (limit := limit) hp ha
    (by rintro rfl; cases hn) hl hb (by
      intro m hm
      rw [hn] at hm
      cases hm
      refine ⟨hnone, fun e1 e2 => ?_⟩
      rcases hno with h | h | h
      · exact absurd e1 h
      · rw [e2] at h
        cases h
      · exact h)
  unfold makedirs
  rw [h1]
  cases f with
  | recursion => exact absurd rfl h2
  | present => rfl
  | other => rfl

/-- Too many directories to make: an exception, and none is made. -/
theorem deep {d : Disk} {cwd a b cur : List Text} {p : Text} (hp : names p = a ++ b) (ha : walk d (start cwd p) a = some cur)
    (hb : ∀ n ∈ b, Plain n) {n : Text} (hn : b.head? = some n) (habs : d.node (cur ++ [n]) = none) {limit : Nat}
    (hl : limit < b.length) : makedirs limit d cwd p = (d, true) := by
  unfold makedirs
  rw [too_deep b hp ha hl hb (by
    intro m hm _
    rw [hn] at hm
    cases hm
    exact habs)]

/-! ### Examples -/

/-- `/home` is a directory with a file `f` and a link `l` to `/home/gone`; `/etc` is a directory without permission to write. -/
def disk : Disk where
  node x := if x = [] ∨ x = ["home".toList] ∨ x = ["etc".toList] then some .dir
    else if x = ["home".toList, "f".toList] then some .file
    else if x = ["home".toList, "l".toList] then some (.link "/home/gone".toList) else none
  may x := x ≠ ["etc".toList]
  depth := 40

theorem disk_closed : Closed disk := by
  intro x n h
  unfold disk at h ⊢
  dsimp only at h ⊢
  rw [if_pos]
  have e : ∀ y : List Text, x ++ [n] = y → x = y.dropLast := by
    rintro y rfl
    rw [List.dropLast_concat]
  by_contra hx
  rw [if_neg, if_neg, if_neg] at h
  · exact h rfl
  · intro h1
    exact hx (.inr (.inl (e _ h1)))
  · intro h1
    exact hx (.inr (.inl (e _ h1)))
  · rintro (h1 | h1 | h1)
    · simp at h1
    · exact hx (.inl (e _ h1))
    · exact hx (.inl (e _ h1))

/-- The same with links `/m` to `home` and `/home/n` to `/m/.`. -/
def linked : Disk := { disk with node := fun x => if x = ["m".toList] then some (.link "home".toList)
  else if x = ["home".toList, "n".toList] then some (.link "/m/.".toList) else disk.node x }

/-- Links are followed, also from links. -/
example : Leads linked [] (names "/m/n/../home/f".toList) ["home".toList, "f".toList] :=
  (resolves linked ["etc".toList] "/m/n/../home/f".toList _).1 (by decide +kernel)

/-- Two directories are made, and the path leads to the second. -/
example : ∃ d', makedirs 1000 disk ["home".toList] "../home//a/b/".toList = (d', false) ∧
    walk d' ["home".toList] (names "../home//a/b/".toList) = some ["home".toList, "a".toList, "b".toList] := by
  obtain ⟨d', h1, -, h2, -⟩ := success (d := disk) disk_closed (cwd := ["home".toList]) (a := ["..".toList, "home".toList])
    (b := ["a".toList, "b".toList]) (cur := ["home".toList]) (p := "../home//a/b/".toList) (by decide +kernel) (by decide +kernel)
    (by unfold Plain; decide +kernel) (n := "a".toList) rfl (by decide +kernel) (limit := 1000) (by decide) (by decide +kernel)
    (by decide +kernel)
  exact ⟨d', h1, h2⟩

/-- Below a file, after the link and in `/etc`, nothing is made. -/
example : makedirs 1000 disk [] "home/f/x/y".toList = (disk, false) ∧ makedirs 1000 disk [] "home/l/x".toList = (disk, false) ∧
    makedirs 1000 disk [] "etc/x".toList = (disk, false) := by
  refine ⟨?_, ?_, ?_⟩
  · exact unnoticed (a := ["home".toList, "f".toList]) (b := ["x".toList, "y".toList]) (cur := ["home".toList, "f".toList])
      (by decide +kernel) (by decide +kernel) (by unfold Plain; decide +kernel) rfl (by decide +kernel) (.inl (by decide +kernel))
      (by decide)
  · exact unnoticed (a := ["home".toList]) (b := ["l".toList, "x".toList]) (cur := ["home".toList])
      (by decide +kernel) (by decide +kernel) (by unfold Plain; decide +kernel) rfl (by decide +kernel)
      (.inr (.inr (by decide +kernel))) (by decide)
  · exact unnoticed (a := ["etc".toList]) (b := ["x".toList]) (cur := ["etc".toList])
      (by decide +kernel) (by decide +kernel) (by unfold Plain; decide +kernel) rfl (by decide +kernel)
      (.inr (.inl (by decide +kernel))) (by decide)

/-- A path to the file. -/
example : makedirs 1000 disk [] "home/./f".toList = (disk, false) :=
  present (by decide) (c := ["home".toList, "f".toList]) (by decide +kernel)

/-- Three directories with a limit of two. -/
example : makedirs 2 disk [] "a/b/c".toList = (disk, true) :=
  deep (a := []) (b := ["a".toList, "b".toList, "c".toList]) (cur := []) (by decide +kernel) (by decide +kernel)
    (by unfold Plain; decide +kernel) rfl (by decide +kernel) (by decide)

end Verif.Props.MakeDirs
