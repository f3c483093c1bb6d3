import Verif.Lemmas.RelPath
import Verif.Lemmas.PosixPath
import Verif.Spec.MakeDirs

/-! Lemmas for C89. -/
set_option linter.unusedSectionVars false
namespace Verif.MakeDirs
open Verif Verif.Etree Verif.PosixPath Verif.RelPath Verif.Spec.RelPath Verif.Spec.MakeDirs

theorem names_slashes : ∀ (k : Nat) (x : Text), names (x ++ List.replicate k '/') = names x
  | 0, x => by simp
  | k + 1, x => by
    rw [List.replicate_succ, names_slash]
    have := names_slashes k []
    rw [List.nil_append, names_nil] at this
    rw [this, List.append_nil]

theorem rstrip_form (x : Text) : ∃ k, x = rstripSlash x ++ List.replicate k '/' ∧ (rstripSlash x).getLast? ≠ some '/' := by
  refine ⟨(x.reverse.takeWhile (· = '/')).length, ?_, ?_⟩
  · unfold rstripSlash
    have h : x.reverse.takeWhile (· = '/') = List.replicate (x.reverse.takeWhile (· = '/')).length '/' := by
      rw [List.eq_replicate_iff]
      refine ⟨rfl, fun b hb => ?_⟩
      have := List.all_takeWhile (p := fun c => decide (c = '/')) (l := x.reverse)
      rw [List.all_eq_true] at this
      simpa using this b hb
    have h2 : x = (x.reverse.dropWhile (· = '/')).reverse ++ (x.reverse.takeWhile (· = '/')).reverse := by
      rw [← List.reverse_append, List.takeWhile_append_dropWhile, List.reverse_reverse]
    conv_lhs => rw [h2]
    congr 1
    conv_lhs => rw [h]
    rw [List.reverse_replicate]
  · unfold rstripSlash
    rw [List.getLast?_reverse]
    intro h
    have := List.head?_dropWhile_not (p := fun c => decide (c = '/')) (l := x.reverse)
    rw [h] at this
    simp at this

theorem slashes_names {x : Text} (h : x.all (· = '/') = true) : names x = [] := by
  have : x = List.replicate x.length '/' := by
    rw [List.eq_replicate_iff]
    exact ⟨rfl, fun b hb => by simpa using (List.all_eq_true.1 h) b hb⟩
  rw [this]
  have := names_slashes x.length []
  rwa [List.nil_append, names_nil] at this

theorem names_rstrip (x : Text) : names (rstripSlash x) = names x := by
  obtain ⟨k, h, -⟩ := rstrip_form x
  conv_rhs => rw [h, names_slashes]

theorem names_dirname (p : Text) : names (dirname p) = names (head p) := by
  unfold dirname
  split
  · rfl
  · exact names_rstrip _

theorem isAbs_dirname (p : Text) : isAbs (dirname p) = isAbs (head p) := by
  unfold dirname
  split
  · rfl
  · rename_i h
    obtain ⟨k, h1, -⟩ := rstrip_form (head p)
    cases hr : rstripSlash (head p) with
    | nil =>
      rw [hr, List.nil_append] at h1
      exact absurd (by rw [h1]; simp) h
    | cons c r =>
      rw [h1, hr]
      rfl

theorem dirname_nil {p : Text} : dirname p = [] ↔ head p = [] := by
  unfold dirname
  split
  · rfl
  · rename_i h
    obtain ⟨k, h1, -⟩ := rstrip_form (head p)
    constructor
    · intro hr
      rw [hr, List.nil_append] at h1
      exact absurd (by rw [h1]; simp) h
    · intro hh
      rw [hh] at h
      simp at h

/-- A path that has a name at its end. -/
theorem tail_of {p : Text} (h : basename p ≠ []) : names p = names (dirname p) ++ [basename p] ∧ (dirname p = [] → isAbs p = false) ∧
    (dirname p ≠ [] → isAbs (dirname p) = isAbs p) := by
  have hs := PosixPath.split p
  have hp : Proper (basename p) := ⟨h, basename_noSlash p⟩
  have hn : names p = names (head p) ++ [basename p] := by
    conv_lhs => rw [← hs]
    rcases dirPart_head p with h1 | ⟨x, h1⟩
    · rw [h1, List.nil_append, names_nil, List.nil_append, names_proper hp]
    · rw [h1, List.append_assoc, List.singleton_append, names_slash, names_proper hp]
      congr 1
      have := names_slashes 1 x
      exact this.symm
  refine ⟨by rw [names_dirname]; exact hn, fun h1 => ?_, fun h1 => ?_⟩
  · rw [dirname_nil] at h1
    rw [h1, List.nil_append] at hs
    rw [← hs]
    exact proper_head hp
  · rw [isAbs_dirname]
    have : head p ≠ [] := fun h2 => h1 (dirname_nil.2 h2)
    obtain ⟨c, r, hc⟩ := List.exists_cons_of_ne_nil this
    rw [hc] at hs ⊢
    rw [← hs]
    rfl

theorem headTail_of {p : Text} {l : List Text} {n : Text} (h : names p = l ++ [n]) : (headTail p).2 = n ∧ names (headTail p).1 = l ∧
    ((headTail p).1 = [] → isAbs p = false) ∧ ((headTail p).1 ≠ [] → isAbs (headTail p).1 = isAbs p) := by
  unfold headTail
  by_cases hb : basename p = []
  · rw [if_pos hb]
    dsimp only
    have hs := PosixPath.split p
    rw [hb, List.append_nil] at hs
    have hna : ¬ (head p).all (· = '/') = true := by
      intro h1
      rw [hs] at h1
      rw [slashes_names h1] at h
      simp at h
    have hd : dirname p = rstripSlash p := by
      unfold dirname
      rw [if_neg hna, hs]
    have hbd : basename (dirname p) ≠ [] := by
      intro h1
      have h2 := PosixPath.split (dirname p)
      rw [h1, List.append_nil] at h2
      obtain ⟨k, h3, h4⟩ := rstrip_form p
      rcases dirPart_head (dirname p) with h5 | ⟨x, h5⟩
      · rw [h2, hd] at h5
        have h6 := names_rstrip p
        rw [h5, names_nil, h] at h6
        simp at h6
      · rw [h2, hd] at h5
        rw [h5] at h4
        simp at h4
    obtain ⟨h1, h2, h3⟩ := tail_of hbd
    have h4 : names (dirname p) = names p := by rw [hd, names_rstrip]
    have h5 : isAbs (dirname p) = isAbs p := by rw [isAbs_dirname, hs]
    rw [h4, h] at h1
    rw [h5] at h2 h3
    have := List.append_inj' h1 rfl
    exact ⟨by simpa using this.2.symm, this.1.symm, h2, h3⟩
  · rw [if_neg hb]
    dsimp only
    obtain ⟨h1, h2, h3⟩ := tail_of hb
    rw [h] at h1
    have := List.append_inj' h1 rfl
    exact ⟨by simpa using this.2.symm, this.1.symm, h2, h3⟩

theorem headTail_nil {p : Text} (h : names p = []) : (headTail p).2 = [] := by
  have hb : basename p = [] := by
    by_contra hb
    have := (tail_of hb).1
    rw [h] at this
    simp at this
  unfold headTail
  rw [if_pos hb]
  dsimp only
  by_contra hd
  have := (tail_of hd).1
  rw [names_dirname] at this
  have hs := PosixPath.split p
  rw [hb, List.append_nil] at hs
  rw [hs, h] at this
  simp at this

/-! ### Resolution -/

theorem foldlM_mono {f g : List Text → Text → Option (List Text)} (h : ∀ c n r, f c n = some r → g c n = some r) :
    ∀ {l : List Text} {c r : List Text}, l.foldlM f c = some r → l.foldlM g c = some r
  | [], _, _, h' => h'
  | n :: l, c, r, h' => by
    rw [List.foldlM_cons] at h' ⊢
    cases hf : f c n with
    | none => rw [hf] at h'; cases h'
    | some c' =>
      rw [hf] at h'
      rw [h c n c' hf]
      exact foldlM_mono h h'

theorem _root_.Verif.Spec.MakeDirs.Grown.keeps {d d' : Disk} (h : Grown d d') {y : List Text} {k : Kind} (hk : d.node y = some k) : d'.node y = some k := by
  rcases h.2.2 y with h1 | ⟨h1, -⟩
  · rw [h1, hk]
  · rw [h1] at hk
    cases hk

theorem go_grown {d d' : Disk} (h : Grown d d') : ∀ (depth : Nat) (c : List Text) (n : Text) (r : List Text),
    go d depth c n = some r → go d' depth c n = some r := by
  intro depth
  induction depth with
  | zero =>
    intro c n r hr
    unfold go at hr ⊢
    split at hr
    · cases hr
    · rename_i h1
      rw [not_not] at h1
      rw [if_neg (by rw [not_not]; exact h.keeps h1)]
      split at hr
      · rename_i h2
        rw [if_pos h2]
        exact hr
      · rename_i h2
        rw [if_neg h2]
        split at hr
        · rename_i h3
          rw [if_pos h3]
          exact hr
        · rename_i h3
          rw [if_neg h3]
          cases hn : d.node (c ++ [n]) with
          | none => rw [hn] at hr; cases hr
          | some k =>
            rw [hn] at hr
            rw [h.keeps hn]
            cases k <;> exact hr
  | succ depth ih =>
    intro c n r hr
    unfold go at hr ⊢
    split at hr
    · cases hr
    · rename_i h1
      rw [not_not] at h1
      rw [if_neg (by rw [not_not]; exact h.keeps h1)]
      split at hr
      · rename_i h2
        rw [if_pos h2]
        exact hr
      · rename_i h2
        rw [if_neg h2]
        split at hr
        · rename_i h3
          rw [if_pos h3]
          exact hr
        · rename_i h3
          rw [if_neg h3]
          cases hn : d.node (c ++ [n]) with
          | none => rw [hn] at hr; cases hr
          | some k =>
            rw [hn] at hr
            rw [h.keeps hn]
            cases k with
            | dir => exact hr
            | file => exact hr
            | link t => exact foldlM_mono ih hr

theorem walk_grown {d d' : Disk} (h : Grown d d') {c l r : List Text} (hr : walk d c l = some r) : walk d' c l = some r := by
  unfold walk at hr ⊢
  rw [h.2.1]
  exact foldlM_mono (go_grown h d.depth) hr

theorem walk_append {d : Disk} {c l l' : List Text} : walk d c (l ++ l') = (walk d c l).bind fun c' => walk d c' l' := by
  unfold walk
  rw [List.foldlM_append]
  rfl

theorem walk_single {d : Disk} {c : List Text} {n : Text} : walk d c [n] = go d d.depth c n := by
  unfold walk
  rw [List.foldlM_cons]
  cases go d d.depth c n <;> rfl

theorem go_plain {d : Disk} {c : List Text} {n : Text} (hn : Plain n) (hc : d.node c = some .dir) (h : d.node (c ++ [n]) = some .dir)
    (depth : Nat) : go d depth c n = some (c ++ [n]) := by
  unfold go
  rw [if_neg (by rw [not_not]; exact hc), if_neg hn.1, if_neg hn.2, h]

theorem go_absent {d : Disk} {c : List Text} {n : Text} (hn : Plain n) (h : d.node c = some .dir → d.node (c ++ [n]) = none)
    (depth : Nat) : go d depth c n = none := by
  unfold go
  by_cases hc : d.node c = some .dir
  · rw [if_neg (by rw [not_not]; exact hc), if_neg hn.1, if_neg hn.2, h hc]
  · rw [if_pos hc]

theorem walk_down {d : Disk} : ∀ {b c : List Text}, (∀ n ∈ b, Plain n) → (∀ i ≤ b.length, d.node (c ++ b.take i) = some .dir) →
    walk d c b = some (c ++ b)
  | [], c, _, _ => by rw [List.append_nil]; rfl
  | n :: b, c, hp, h => by
    have h0 := h 0 (by simp)
    have h1 := h 1 (by simp)
    simp only [List.take_zero, List.append_nil] at h0
    simp only [List.take_succ_cons, List.take_zero] at h1
    have : walk d c (n :: b) = walk d c ([n] ++ b) := rfl
    rw [this, walk_append, walk_single, go_plain (hp n (by simp)) h0 h1, Option.bind_some]
    rw [walk_down (fun m hm => hp m (List.mem_cons_of_mem _ hm)) (fun i hi => by
      have := h (i + 1) (by simp; omega)
      rw [List.take_succ_cons] at this
      rwa [List.append_assoc])]
    rw [List.append_assoc]
    rfl

theorem closed_none {d : Disk} (hc : Closed d) {x : List Text} {n : Text} (h : d.node (x ++ [n]) = none) (l : List Text) :
    d.node (x ++ n :: l) = none := by
  induction l using List.reverseRecOn with
  | nil => exact h
  | append_singleton l m ih =>
    by_contra hne
    have : x ++ n :: (l ++ [m]) = (x ++ n :: l) ++ [m] := by simp
    rw [this] at hne
    rw [hc _ _ hne] at ih
    cases ih

theorem _root_.Verif.Spec.MakeDirs.Leads.append {d : Disk} {c c' l l' r : List Text} (h : Leads d c l c') (h' : Leads d c' l' r) :
    Leads d c (l ++ l') r := by
  induction h with
  | here => exact h'
  | dot h1 _ ih => exact .dot h1 (ih h')
  | up h1 _ ih => exact .up h1 (ih h')
  | entry h1 h2 h3 h4 _ ih => exact .entry h1 h2 h3 h4 (ih h')
  | link h1 h2 h3 h4 _ _ ih => exact .link h1 h2 h3 h4 (ih h')

theorem leads_fold {d : Disk} {f : List Text → Text → Option (List Text)} (hf : ∀ c n r, f c n = some r → Leads d c [n] r) :
    ∀ {l c r : List Text}, l.foldlM f c = some r → Leads d c l r
  | [], c, r, h => by cases h; exact .here c
  | n :: l, c, r, h => by
    rw [List.foldlM_cons] at h
    cases h1 : f c n with
    | none => rw [h1] at h; cases h
    | some c' =>
      rw [h1] at h
      exact (hf c n c' h1).append (leads_fold hf h)

theorem go_leads {d : Disk} : ∀ (depth : Nat) (c : List Text) (n : Text) (r : List Text), go d depth c n = some r → Leads d c [n] r := by
  intro depth
  induction depth with
  | zero =>
    intro c n r h
    unfold go at h
    split at h
    · cases h
    · rename_i h1
      rw [not_not] at h1
      split at h
      · rename_i h2; subst h2; cases h; exact .dot h1 (.here _)
      · rename_i h2
        split at h
        · rename_i h3; subst h3; cases h; exact .up h1 (.here _)
        · rename_i h3
          cases hn : d.node (c ++ [n]) with
          | none => rw [hn] at h; cases h
          | some k =>
            rw [hn] at h
            cases k with
            | link t => cases h
            | dir => cases h; exact .entry h1 ⟨h2, h3⟩ hn (by simp) (.here _)
            | file => cases h; exact .entry h1 ⟨h2, h3⟩ hn (by simp) (.here _)
  | succ depth ih =>
    intro c n r h
    unfold go at h
    split at h
    · cases h
    · rename_i h1
      rw [not_not] at h1
      split at h
      · rename_i h2; subst h2; cases h; exact .dot h1 (.here _)
      · rename_i h2
        split at h
        · rename_i h3; subst h3; cases h; exact .up h1 (.here _)
        · rename_i h3
          cases hn : d.node (c ++ [n]) with
          | none => rw [hn] at h; cases h
          | some k =>
            rw [hn] at h
            cases k with
            | link t =>
              refine .link h1 ⟨h2, h3⟩ hn ?_ (.here _)
              have := leads_fold ih h
              simpa [isAbs] using this
            | dir => cases h; exact .entry h1 ⟨h2, h3⟩ hn (by simp) (.here _)
            | file => cases h; exact .entry h1 ⟨h2, h3⟩ hn (by simp) (.here _)

theorem leads_go {d : Disk} {c l r : List Text} (h : Leads d c l r) :
    ∃ m, ∀ d' : Disk, d'.node = d.node → ∀ m' ≥ m, l.foldlM (go d' m') c = some r := by
  induction h with
  | here => exact ⟨0, fun _ _ _ _ => rfl⟩
  | dot h1 _ ih =>
    obtain ⟨m, ih⟩ := ih
    refine ⟨m, fun d' hd m' hm => ?_⟩
    rw [List.foldlM_cons]
    conv_lhs => unfold go
    rw [hd, if_neg (by rw [not_not]; exact h1), if_pos rfl]
    exact ih d' hd m' hm
  | up h1 _ ih =>
    obtain ⟨m, ih⟩ := ih
    refine ⟨m, fun d' hd m' hm => ?_⟩
    rw [List.foldlM_cons]
    conv_lhs => unfold go
    rw [hd, if_neg (by rw [not_not]; exact h1), if_neg (by simp), if_pos rfl]
    exact ih d' hd m' hm
  | @entry c l r n k h1 h2 h3 h4 _ ih =>
    obtain ⟨m, ih⟩ := ih
    refine ⟨m, fun d' hd m' hm => ?_⟩
    rw [List.foldlM_cons]
    have : go d' m' c n = some (c ++ [n]) := by
      unfold go
      rw [hd, if_neg (by rw [not_not]; exact h1), if_neg h2.1, if_neg h2.2, h3]
      cases k with
      | link t => exact absurd rfl (h4 t)
      | dir => rfl
      | file => rfl
    rw [this]
    exact ih d' hd m' hm
  | @link c c' l r n t h1 h2 h3 _ _ ih1 ih2 =>
    obtain ⟨m1, ih1⟩ := ih1
    obtain ⟨m2, ih2⟩ := ih2
    refine ⟨max (m1 + 1) m2, fun d' hd m' hm => ?_⟩
    obtain ⟨m', rfl⟩ : ∃ k, m' = k + 1 := ⟨m' - 1, by omega⟩
    rw [List.foldlM_cons]
    have : go d' (m' + 1) c n = some c' := by
      have e := ih1 d' hd m' (by omega)
      unfold go
      rw [hd, if_neg (by rw [not_not]; exact h1), if_neg h2.1, if_neg h2.2, h3]
      dsimp only
      simpa [isAbs] using e
    rw [this]
    exact ih2 d' hd (m' + 1) (by omega)

/-! ### Making directories -/

theorem _root_.Verif.Spec.MakeDirs.Grown.rfl' {d : Disk} : Grown d d := ⟨rfl, rfl, fun _ => .inl rfl⟩

theorem _root_.Verif.Spec.MakeDirs.Grown.trans {d e f : Disk} (h : Grown d e) (h' : Grown e f) : Grown d f := by
  refine ⟨h'.1.trans h.1, h'.2.1.trans h.2.1, fun y => ?_⟩
  rcases h.2.2 y with h1 | ⟨h1, h2⟩
  · rcases h'.2.2 y with h3 | ⟨h3, h4⟩
    · exact .inl (h3.trans h1)
    · exact .inr ⟨h1 ▸ h3, h4⟩
  · exact .inr ⟨h1, h'.keeps h2⟩

theorem mkdir_grown (d : Disk) (cwd : List Text) (p : Text) : Grown d (mkdir d cwd p).1 := by
  unfold mkdir
  split
  · exact Grown.rfl'
  · split
    · exact Grown.rfl'
    · rename_i cur _
      split
      · exact Grown.rfl'
      · split
        · exact Grown.rfl'
        · rename_i n _ _ _ _ h
          simp only [not_or, not_not] at h
          split
          · refine ⟨rfl, rfl, fun y => ?_⟩
            dsimp only
            split
            · rename_i hy
              right
              rw [hy]
              exact ⟨h.2.2, rfl⟩
            · exact .inl rfl
          · exact Grown.rfl'

theorem osMakedirs_grown : ∀ (limit : Nat) (d : Disk) (cwd : List Text) (p : Text), Grown d (osMakedirs limit d cwd p).1
  | 0, d, _, _ => Grown.rfl'
  | limit + 1, d, cwd, p => by
    unfold osMakedirs
    split
    · have h := osMakedirs_grown limit d cwd (headTail p).1
      split
      · rename_i d' heq; rw [heq] at h; exact h
      · rename_i d' heq; rw [heq] at h; exact h
      · rename_i d' _ _ _ heq
        rw [heq] at h
        split
        · exact h
        · exact h.trans (mkdir_grown _ _ _)
    · exact mkdir_grown _ _ _

theorem mkdir_new {d : Disk} {cwd : List Text} {p : Text} {l c : List Text} {n : Text} (h : names p = l ++ [n])
    (hw : walk d (start cwd p) l = some c) (hn : Plain n) (hc : d.node c = some .dir → d.node (c ++ [n]) = none) :
    mkdir d cwd p = if d.node c = some .dir ∧ d.may c = true then
      ({ d with node := fun x => if x = c ++ [n] then some .dir else d.node x }, none) else (d, some .other) := by
  unfold mkdir
  rw [h, List.getLast?_concat]
  dsimp only
  rw [List.dropLast_concat, hw]
  dsimp only
  by_cases h1 : d.node c = some .dir
  · rw [if_neg (by rw [not_not]; exact h1), if_neg (by simp [hn.1, hn.2, hc h1])]
    by_cases h2 : d.may c = true
    · rw [if_pos h2, if_pos ⟨h1, h2⟩]
    · rw [if_neg h2, if_neg (fun h => h2 h.2)]
  · rw [if_pos h1, if_neg (fun h => h1 h.1)]

theorem mkdir_fails {d : Disk} {cwd : List Text} {p : Text} {c : List Text} (hw : walk d (start cwd p) (names p) = some c) :
    ∃ f, mkdir d cwd p = (d, some f) ∧ f ≠ .recursion := by
  unfold mkdir
  cases hl : (names p).getLast? with
  | none =>
    dsimp only
    refine ⟨_, rfl, ?_⟩
    split <;> decide
  | some n =>
    dsimp only
    obtain ⟨l, hl'⟩ := List.getLast?_eq_some_iff.1 hl
    rw [hl'] at hw ⊢
    rw [List.dropLast_concat]
    rw [walk_append] at hw
    cases hw1 : walk d (start cwd p) l with
    | none => exact ⟨_, rfl, by decide⟩
    | some c' =>
      rw [hw1, Option.bind_some, walk_single] at hw
      dsimp only
      by_cases h1 : d.node c' = some .dir
      · rw [if_neg (by rw [not_not]; exact h1)]
        by_cases h2 : n = ['.'] ∨ n = ['.', '.'] ∨ d.node (c' ++ [n]) ≠ none
        · rw [if_pos h2]
          exact ⟨_, rfl, by decide⟩
        · simp only [not_or, not_not] at h2
          rw [go_absent ⟨h2.1, h2.2.1⟩ (fun _ => h2.2.2)] at hw
          cases hw
      · rw [if_pos h1]
        exact ⟨_, rfl, by decide⟩

theorem start_head {cwd : List Text} {p : Text} {l : List Text} {n : Text} (h : names p = l ++ [n]) (hne : (headTail p).1 ≠ []) :
    start cwd (headTail p).1 = start cwd p := by
  unfold start
  rw [(headTail_of h).2.2.2 hne]

theorem osMakedirs_mkdir {limit : Nat} {d : Disk} {cwd : List Text} {p : Text} {l c : List Text} {n : Text} (h : names p = l ++ [n])
    (hw : walk d (start cwd p) l = some c) : osMakedirs (limit + 1) d cwd p = mkdir d cwd p := by
  unfold osMakedirs
  rw [if_neg]
  rintro ⟨h1, -, h3⟩
  unfold exist at h3
  rw [start_head h h1, (headTail_of h).2.1, hw] at h3
  cases h3

theorem osMakedirs_present {limit : Nat} {d : Disk} {cwd : List Text} {p : Text} {c : List Text}
    (hw : walk d (start cwd p) (names p) = some c) : ∃ f, osMakedirs (limit + 1) d cwd p = (d, some f) ∧ f ≠ .recursion := by
  have key : osMakedirs (limit + 1) d cwd p = mkdir d cwd p := by
    rcases List.eq_nil_or_concat (names p) with h | ⟨l, n, h⟩
    · unfold osMakedirs
      rw [if_neg]
      rintro ⟨-, h2, -⟩
      exact h2 (headTail_nil h)
    · rw [List.concat_eq_append] at h
      rw [h, walk_append] at hw
      cases hw1 : walk d (start cwd p) l with
      | none => rw [hw1] at hw; cases hw
      | some c' => exact osMakedirs_mkdir h hw1
  rw [key]
  exact mkdir_fails hw

/-- A step of the recursion. -/
theorem osMakedirs_step {limit : Nat} {d : Disk} {cwd : List Text} {p : Text} {l : List Text} {n : Text} (h : names p = l ++ [n])
    (hl : l ≠ []) (hn : Plain n) (hw : walk d (start cwd p) l = none) :
    osMakedirs (limit + 1) d cwd p = match osMakedirs limit d cwd (headTail p).1 with
      | (d, some .other) => (d, some .other)
      | (d, some .recursion) => (d, some .recursion)
      | (d, _) => mkdir d cwd p := by
  obtain ⟨h1, h2, -, -⟩ := headTail_of h
  have hne : (headTail p).1 ≠ [] := by
    intro h3
    rw [h3, names_nil] at h2
    exact hl h2.symm
  have hnn : n ≠ [] := (names_mem p n (by rw [h]; simp)).1
  conv_lhs => unfold osMakedirs
  rw [if_pos]
  · generalize osMakedirs limit d cwd (headTail p).1 = r
    obtain ⟨d', f⟩ := r
    have h2 : ¬ (headTail p).2 = ['.'] := by rw [h1]; exact hn.1
    cases f with
    | none =>
      dsimp only
      rw [if_neg h2]
    | some f =>
      cases f with
      | present =>
        dsimp only
        rw [if_neg h2]
      | other => rfl
      | recursion => rfl
  · refine ⟨hne, by rw [h1]; exact hnn, ?_⟩
    unfold exist
    rw [start_head h hne, h2, hw]
    rfl

theorem walk_none {d : Disk} {s a b cur : List Text} {n : Text} (ha : walk d s a = some cur) (hn : Plain n)
    (hf : d.node cur = some .dir → d.node (cur ++ [n]) = none) : walk d s (a ++ n :: b) = none := by
  have : a ++ n :: b = a ++ ([n] ++ b) := rfl
  rw [this, walk_append, ha, Option.bind_some, walk_append, walk_single, go_absent hn hf]
  rfl

theorem makes {d : Disk} (hc : Closed d) {cwd a cur : List Text} (b : List Text) : ∀ {p : Text} {limit : Nat}, names p = a ++ b →
    walk d (start cwd p) a = some cur → b ≠ [] → b.length ≤ limit → (∀ n ∈ b, Plain n) →
    (∀ n, b.head? = some n → d.node cur = some .dir → d.node (cur ++ [n]) = none) →
    ∃ d' f k, osMakedirs limit d cwd p = (d', f) ∧ k ≤ b.length ∧ (0 < k → d.node cur = some .dir) ∧
      (∀ i < k, d.may (cur ++ b.take i) = true) ∧
      (k < b.length → (d.node cur = some .dir → d.may (cur ++ b.take k) = false) ∧ f = some .other) ∧ (k = b.length → f = none) ∧
      With d cur b k d' := by
  induction b using List.reverseRecOn with
  | nil => intro _ _ _ _ h; exact absurd rfl h
  | append_singleton b n ih =>
    intro p limit hp hw _ hlim hpl hfr
    obtain ⟨limit, rfl⟩ : ∃ m, limit = m + 1 := ⟨limit - 1, by simp at hlim; omega⟩
    rw [← List.append_assoc] at hp
    have hn : Plain n := hpl n (by simp)
    by_cases hb : b = []
    · subst hb
      rw [List.append_nil] at hp
      rw [osMakedirs_mkdir hp hw, mkdir_new hp hw hn (hfr n (by simp))]
      by_cases hcond : d.node cur = some .dir ∧ d.may cur = true
      · rw [if_pos hcond]
        refine ⟨_, _, 1, rfl, by simp, fun _ => hcond.1, ?_, by simp, by simp, rfl, rfl, fun y => ?_⟩
        · intro i hi
          obtain rfl : i = 0 := by omega
          simpa using hcond.2
        · dsimp only
          by_cases hy : y = cur ++ [n]
          · rw [if_pos hy, if_pos ⟨0, by omega, by simpa using hy⟩]
          · rw [if_neg hy, if_neg]
            rintro ⟨i, hi, h⟩
            obtain rfl : i = 0 := by omega
            exact hy (by simpa using h)
      · rw [if_neg hcond]
        refine ⟨_, _, 0, rfl, by simp, by simp, by simp, fun _ => ⟨fun h => ?_, rfl⟩, by simp, rfl, rfl, fun y => by simp⟩
        simpa using fun h' => hcond ⟨h, h'⟩
    · obtain ⟨n0, br, hb0⟩ := List.exists_cons_of_ne_nil hb
      have hpl' : ∀ m ∈ b, Plain m := fun m hm => hpl m (List.mem_append_left _ hm)
      have hfr' : ∀ m, b.head? = some m → d.node cur = some .dir → d.node (cur ++ [m]) = none := by
        intro m hm
        refine hfr m ?_
        rw [hb0] at hm ⊢
        simpa using hm
      have hnone : walk d (start cwd p) (a ++ b) = none := by
        rw [hb0]
        exact walk_none hw (hpl' n0 (by rw [hb0]; simp)) (hfr' n0 (by rw [hb0]; rfl))
      have hab : a ++ b ≠ [] := by simp [hb]
      obtain ⟨-, h2, -, -⟩ := headTail_of hp
      have hne : (headTail p).1 ≠ [] := by
        intro h3
        rw [h3, names_nil] at h2
        exact hab h2.symm
      rw [osMakedirs_step hp hab hn hnone]
      have hw' : walk d (start cwd (headTail p).1) a = some cur := by rw [start_head hp hne]; exact hw
      obtain ⟨d', f, k, e1, e2, e3, e4, e5, e6, e7⟩ := ih (p := (headTail p).1) (limit := limit) h2 hw' hb
        (by simp at hlim; omega) hpl' hfr'
      have htake : ∀ i ≤ b.length, (b ++ [n]).take i = b.take i := fun i hi => List.take_append_of_le_length hi
      rw [e1]
      rcases Nat.lt_or_ge k b.length with hk | hk
      · obtain ⟨g1, g2⟩ := e5 hk
        subst g2
        refine ⟨d', some .other, k, rfl, by simp; omega, e3, ?_, fun _ => ⟨?_, rfl⟩, ?_, e7.1, e7.2.1, fun y => ?_⟩
        · intro i hi
          rw [htake i (by omega)]
          exact e4 i hi
        · rw [htake k (by omega)]
          exact g1
        · intro h
          simp at h
          omega
        · rw [e7.2.2 y]
          congr 1
          refine propext (exists_congr fun i => and_congr_right fun hi => ?_)
          rw [htake (i + 1) (by omega)]
      · obtain rfl : k = b.length := by omega
        rw [e6 rfl]
        dsimp only
        have hpos : 0 < b.length := List.length_pos_of_ne_nil hb
        have hcd := e3 hpos
        have hgrown : Grown d d' := by
          have := osMakedirs_grown limit d cwd (headTail p).1
          rwa [e1] at this
        have hdirs : ∀ i ≤ b.length, d'.node (cur ++ b.take i) = some .dir := by
          intro i hi
          rcases i with _ | i
          · rw [List.take_zero, List.append_nil]
            exact hgrown.keeps hcd
          · rw [e7.2.2, if_pos ⟨i, by omega, rfl⟩]
        have hwalk : walk d' (start cwd p) (a ++ b) = some (cur ++ b) := by
          rw [walk_append, walk_grown hgrown hw, Option.bind_some]
          exact walk_down hpl' hdirs
        have habs : d.node (cur ++ b ++ [n]) = none := by
          have := closed_none hc (hfr' n0 (by rw [hb0]; rfl) hcd) (br ++ [n])
          rw [hb0]
          simpa using this
        have hnew : d'.node (cur ++ b ++ [n]) = none := by
          rw [e7.2.2, if_neg, habs]
          rintro ⟨i, hi, h⟩
          have := congrArg List.length h
          simp at this
          omega
        have hdb := hdirs b.length (le_refl _)
        rw [List.take_length] at hdb
        rw [mkdir_new hp hwalk hn (fun _ => hnew), e7.1]
        by_cases hm : d.may (cur ++ b) = true
        · rw [if_pos ⟨hdb, hm⟩]
          refine ⟨_, _, b.length + 1, rfl, by simp, fun _ => hcd, ?_, fun h => by simp at h, fun _ => rfl, rfl, e7.2.1, fun y => ?_⟩
          · intro i hi
            rw [htake i (by omega)]
            rcases Nat.lt_or_ge i b.length with h | h
            · exact e4 i h
            · rw [List.take_of_length_le h]
              exact hm
          · dsimp only
            rw [e7.2.2]
            by_cases hy : y = cur ++ b ++ [n]
            · rw [if_pos hy, if_pos ⟨b.length, by omega, by rw [hy, List.take_of_length_le (by simp), List.append_assoc]⟩]
            · rw [if_neg hy]
              congr 1
              refine propext ⟨?_, ?_⟩
              · rintro ⟨i, hi, h⟩
                exact ⟨i, by omega, by rw [htake (i + 1) (by omega)]; exact h⟩
              · rintro ⟨i, hi, h⟩
                rcases Nat.lt_or_ge i b.length with h' | h'
                · exact ⟨i, h', by rw [htake (i + 1) (by omega)] at h; exact h⟩
                · rw [List.take_of_length_le (by simp; omega), ← List.append_assoc] at h
                  exact absurd h hy
        · rw [if_neg (fun h => hm h.2)]
          refine ⟨d', _, b.length, rfl, by simp, fun _ => hcd, ?_, fun _ => ⟨fun _ => ?_, rfl⟩, fun h => by simp at h, e7.1, e7.2.1,
            fun y => ?_⟩
          · intro i hi
            rw [htake i (by omega)]
            exact e4 i hi
          · rw [htake b.length (le_refl _), List.take_length]
            simpa using hm
          · rw [e7.2.2 y]
            congr 1
            refine propext (exists_congr fun i => and_congr_right fun hi => ?_)
            rw [htake (i + 1) (by omega)]

theorem too_deep {d : Disk} {cwd a cur : List Text} (b : List Text) : ∀ {p : Text} {limit : Nat}, names p = a ++ b →
    walk d (start cwd p) a = some cur → limit < b.length → (∀ n ∈ b, Plain n) →
    (∀ n, b.head? = some n → d.node cur = some .dir → d.node (cur ++ [n]) = none) →
    osMakedirs limit d cwd p = (d, some .recursion) := by
  induction b using List.reverseRecOn with
  | nil => intro _ _ _ _ h; simp at h
  | append_singleton b n ih =>
    intro p limit hp hw hlim hpl hfr
    cases limit with
    | zero => rfl
    | succ limit =>
      rw [List.length_append, List.length_singleton] at hlim
      rw [← List.append_assoc] at hp
      have hb : b ≠ [] := by rintro rfl; simp at hlim
      obtain ⟨n0, br, hb0⟩ := List.exists_cons_of_ne_nil hb
      have hpl' : ∀ m ∈ b, Plain m := fun m hm => hpl m (List.mem_append_left _ hm)
      have hfr' : ∀ m, b.head? = some m → d.node cur = some .dir → d.node (cur ++ [m]) = none := by
        intro m hm
        refine hfr m ?_
        rw [hb0] at hm ⊢
        simpa using hm
      have hnone : walk d (start cwd p) (a ++ b) = none := by
        rw [hb0]
        exact walk_none hw (hpl' n0 (by rw [hb0]; simp)) (hfr' n0 (by rw [hb0]; rfl))
      have hab : a ++ b ≠ [] := by simp [hb]
      obtain ⟨-, h2, -, -⟩ := headTail_of hp
      have hne : (headTail p).1 ≠ [] := by
        intro h3
        rw [h3, names_nil] at h2
        exact hab h2.symm
      rw [osMakedirs_step hp hab (hpl n (by simp)) hnone]
      rw [ih (p := (headTail p).1) (limit := limit) h2 (by rw [start_head hp hne]; exact hw) (by omega) hpl' hfr']

theorem blocked {d : Disk} {cwd a cur : List Text} (b : List Text) : ∀ {p : Text} {limit : Nat}, names p = a ++ b →
    walk d (start cwd p) a = some cur → b ≠ [] → b.length ≤ limit → (∀ n ∈ b, Plain n) →
    (∀ n, b.head? = some n → walk d cur [n] = none ∧
      (d.node cur = some .dir → d.may cur = true → d.node (cur ++ [n]) ≠ none)) →
    ∃ f, osMakedirs limit d cwd p = (d, some f) ∧ f ≠ .recursion := by
  induction b using List.reverseRecOn with
  | nil => intro _ _ _ _ h; exact absurd rfl h
  | append_singleton b n ih =>
    intro p limit hp hw _ hlim hpl hfr
    obtain ⟨limit, rfl⟩ : ∃ m, limit = m + 1 := ⟨limit - 1, by simp at hlim; omega⟩
    rw [← List.append_assoc] at hp
    have hn : Plain n := hpl n (by simp)
    by_cases hb : b = []
    · subst hb
      rw [List.append_nil] at hp
      rw [osMakedirs_mkdir hp hw]
      have h := (hfr n (by simp)).2
      unfold mkdir
      rw [hp, List.getLast?_concat]
      dsimp only
      rw [List.dropLast_concat, hw]
      dsimp only
      by_cases h1 : d.node cur = some .dir
      · rw [if_neg (by rw [not_not]; exact h1)]
        by_cases h2 : d.node (cur ++ [n]) = none
        · rw [if_neg (by simp [hn.1, hn.2, h2]), if_neg (fun h3 => h h1 h3 h2)]
          exact ⟨_, rfl, by decide⟩
        · rw [if_pos (.inr (.inr h2))]
          exact ⟨_, rfl, by decide⟩
      · rw [if_pos h1]
        exact ⟨_, rfl, by decide⟩
    · obtain ⟨n0, br, hb0⟩ := List.exists_cons_of_ne_nil hb
      have hpl' : ∀ m ∈ b, Plain m := fun m hm => hpl m (List.mem_append_left _ hm)
      have hhead : ∀ m, b.head? = some m → (b ++ [n]).head? = some m := by
        intro m hm
        rw [hb0] at hm ⊢
        simpa using hm
      have hnone : walk d (start cwd p) (a ++ b) = none := by
        have h1 := (hfr n0 (hhead n0 (by rw [hb0]; rfl))).1
        have : a ++ b = a ++ ([n0] ++ br) := by rw [hb0]; rfl
        rw [this, walk_append, hw, Option.bind_some, walk_append, h1]
        rfl
      have hab : a ++ b ≠ [] := by simp [hb]
      obtain ⟨-, h2, -, -⟩ := headTail_of hp
      have hne : (headTail p).1 ≠ [] := by
        intro h3
        rw [h3, names_nil] at h2
        exact hab h2.symm
      rw [osMakedirs_step hp hab hn hnone]
      obtain ⟨f, e1, e2⟩ := ih (p := (headTail p).1) (limit := limit) h2 (by rw [start_head hp hne]; exact hw) hb
        (by simp at hlim; omega) hpl' (fun m hm => hfr m (hhead m hm))
      rw [e1]
      cases f with
      | recursion => exact absurd rfl e2
      | other => exact ⟨_, rfl, by decide⟩
      | present =>
        dsimp only
        unfold mkdir
        rw [hp, List.getLast?_concat]
        dsimp only
        rw [List.dropLast_concat, hnone]
        exact ⟨_, rfl, by decide⟩

end Verif.MakeDirs
