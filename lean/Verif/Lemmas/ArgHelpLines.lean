import Verif.Lemmas.ArgHelpText

/-! The lines of the help, argument by argument. -/
namespace Verif.ArgHelp
open Verif Verif.Argparse Verif.Spec.UsageHelp
set_option linter.unusedSectionVars false
set_option linter.unusedVariables false
set_option linter.unusedSimpArgs false

theorem isSpace_white {c : Char} : isSpace c = true ↔ White c := isSpace_iff

/-! ### White space -/

theorem squeeze_letters : ∀ (t : Text) (b : Bool), letters (squeeze b t) = letters t
  | [], b => rfl
  | c :: t, b => by
    have hs : ¬ (decide (¬ White ' ') = true) := by decide
    unfold squeeze
    by_cases hc : isSpace c = true
    · have hw : ¬ (decide (¬ White c) = true) := by simpa using isSpace_white.1 hc
      rw [if_pos hc]
      have e : letters (c :: t) = letters t := List.filter_cons_of_neg (p := fun c => decide (¬ White c)) hw
      rw [e]
      cases b
      · rw [if_neg (by simp)]
        have : letters (' ' :: squeeze true t) = letters (squeeze true t) :=
          List.filter_cons_of_neg (p := fun c => decide (¬ White c)) hs
        rw [this, squeeze_letters t]
      · rw [if_pos rfl, squeeze_letters t]
    · have hw : decide (¬ White c) = true := by simpa using fun h => hc (isSpace_white.2 h)
      rw [if_neg hc]
      have e : ∀ x : Text, letters (c :: x) = c :: letters x := fun x =>
        List.filter_cons_of_pos (p := fun c => decide (¬ White c)) hw
      rw [e, e, squeeze_letters t]

theorem squeeze_white : ∀ (t : Text) (b : Bool), ∀ c ∈ squeeze b t, White c → c = ' '
  | [], b, c, h, _ => by simp [squeeze] at h
  | d :: t, b, c, h, hw => by
    unfold squeeze at h
    by_cases hd : isSpace d = true
    · rw [if_pos hd] at h
      cases b
      · rw [if_neg (by simp)] at h
        rcases List.mem_cons.1 h with h | h
        · exact h
        · exact squeeze_white t _ c h hw
      · rw [if_pos rfl] at h
        exact squeeze_white t _ c h hw
    · rw [if_neg hd] at h
      rcases List.mem_cons.1 h with h | h
      · subst h
        exact absurd (isSpace_white.2 hw) hd
      · exact squeeze_white t _ c h hw

theorem dropWhile_letters : ∀ t : Text, letters (t.dropWhile isSpace) = letters t
  | [] => rfl
  | c :: t => by
    by_cases hc : isSpace c = true
    · have hw : ¬ (decide (¬ White c) = true) := by simpa using isSpace_white.1 hc
      rw [List.dropWhile_cons_of_pos hc, dropWhile_letters t]
      exact (List.filter_cons_of_neg (p := fun c => decide (¬ White c)) hw).symm
    · rw [List.dropWhile_cons_of_neg hc]

theorem letters_reverse (t : Text) : letters t.reverse = (letters t).reverse := by
  unfold letters
  rw [List.filter_reverse]

theorem strip_letters (t : Text) : letters (strip t) = letters t := by
  unfold strip
  rw [letters_reverse, dropWhile_letters, letters_reverse, dropWhile_letters, List.reverse_reverse]

theorem strip_mem {t : Text} {c : Char} (h : c ∈ strip t) : c ∈ t := by
  unfold strip at h
  have h := List.mem_reverse.1 h
  have h := (List.dropWhile_sublist _).mem h
  have h := List.mem_reverse.1 h
  exact (List.dropWhile_sublist _).mem h

theorem splitLines_ok {o : Outside} (ho : Lawful o) (t : Text) {w : Int} (hw : 0 < w) :
    ∃ l, splitLines o t w = .ok l ∧ Wraps t w l := by
  obtain ⟨l, h1, h2⟩ := ho.wraps (strip (squeeze false t)) w hw fun c hc => squeeze_white t _ c (strip_mem hc)
  exact ⟨l, h1, by rw [h2.letters, strip_letters, squeeze_letters], h2.width⟩

theorem splitLines_narrow {o : Outside} (ho : Lawful o) (t : Text) {w : Int} (hw : w ≤ 0) :
    splitLines o t w = .error .valueError := ho.narrow _ _ hw

/-! ### Entries -/

theorem invocation_eq {s : Shown} : invocation s = entry s := by
  unfold invocation entry
  by_cases hn : s.arg.names = []
  · rw [if_pos hn, if_pos hn, label_eq, if_pos hn]
  · rw [if_neg hn, if_neg hn]
    by_cases h0 : s.arg.nargs = .num 0
    · rw [if_pos h0, h0]
      have : s.arg.names.map (fun n => spaces (n :: values (label s) (.num 0))) = s.arg.names := by
        have : (fun n : Text => spaces (n :: values (label s) (.num 0))) = id := by
          funext n
          exact spaces_single n
        rw [this, List.map_id]
      rw [this]
    · rw [if_neg h0]
      congr 1
      refine List.map_congr_left fun n _ => ?_
      rw [spaces_cons' _ (values_ne h0), formatArgs_eq (by rw [label_eq, if_neg hn])]

theorem newline_intercalate {x : Text} (hx : '\n' ∉ x) : ∀ {l : List Text}, (∀ u ∈ l, '\n' ∉ u) → '\n' ∉ x.intercalate l
  | [], _ => by simp
  | [a], h => by simpa using h a (by simp)
  | a :: b :: l, h => by
    have h1 := h a (by simp)
    have h2 := newline_intercalate hx (l := b :: l) fun u hu => h u (List.mem_cons_of_mem _ hu)
    simp only [List.intercalate_cons_cons, List.mem_append, not_or]
    exact ⟨⟨h1, hx⟩, h2⟩

theorem plain_newline {t : Text} (h : PlainText t) : '\n' ∉ t := no_newline (tidy_plain h)

theorem entry_newline {s : Shown} (h : Plain s) : '\n' ∉ entry s := by
  unfold entry
  by_cases hn : s.arg.names = []
  · rw [if_pos hn]
    exact plain_newline (h.label (h.positional hn))
  · rw [if_neg hn]
    refine newline_intercalate (by decide) fun u hu => ?_
    obtain ⟨n, hn', rfl⟩ := List.mem_map.1 hu
    refine spaces_newline fun v hv => ?_
    rcases List.mem_cons.1 hv with rfl | hv
    · exact plain_newline (h.names _ hn')
    · by_cases h0 : s.arg.nargs = .num 0
      · rw [h0] at hv
        simp [values] at hv
      · exact no_newline (tidy_values (h.label h0) _ v hv)

/-! ### The column -/

theorem foldl_max_le (l : List Nat) : ∀ a b, l.foldl max a ≤ b ↔ a ≤ b ∧ ∀ x ∈ l, x ≤ b := by
  induction l with
  | nil => intro a b; simp
  | cons c l ih =>
    intro a b
    rw [List.foldl_cons, ih]
    simp only [List.mem_cons, forall_eq_or_imp, Nat.max_le]
    tauto

theorem foldl_max_mem (l : List Nat) : ∀ a, l.foldl max a = a ∨ l.foldl max a ∈ l := by
  induction l with
  | nil => intro a; simp
  | cons c l ih =>
    intro a
    rw [List.foldl_cons]
    rcases ih (max a c) with h | h
    · rw [h]
      rcases Nat.le_total a c with h' | h'
      · right; rw [Nat.max_eq_right h']; simp
      · left; rw [Nat.max_eq_left h']
    · right; exact List.mem_cons_of_mem _ h

theorem column_eq {l : List Shown} {k : Nat} (h : Column l k) : helpPosition l = k := by
  unfold helpPosition
  have up := foldl_max_le (l.map fun s => (invocation s).length + 2) 0
  have mem := foldl_max_mem (l.map fun s => (invocation s).length + 2) 0
  generalize hm : (l.map fun s => (invocation s).length + 2).foldl max 0 = m at up mem
  rcases h with ⟨rfl, s, hs, h⟩ | ⟨hk, h1, s, hs, h2⟩
  · have := ((up m).1 (Nat.le_refl _)).2 _ (List.mem_map.2 ⟨s, hs, rfl⟩)
    rw [invocation_eq] at this
    omega
  · have a := ((up m).1 (Nat.le_refl _)).2 _ (List.mem_map.2 ⟨s, hs, rfl⟩)
    rw [invocation_eq] at a
    have b := (up (k - 2)).2 ⟨by omega, fun x hx => by
      obtain ⟨u, hu, rfl⟩ := List.mem_map.1 hx
      have := h1 u hu
      rw [invocation_eq]
      omega⟩
    omega

theorem column_exists {l : List Shown} (h : l ≠ []) : Column l (helpPosition l) := by
  unfold helpPosition
  have up := foldl_max_le (l.map fun s => (invocation s).length + 2) 0
  have mem := foldl_max_mem (l.map fun s => (invocation s).length + 2) 0
  generalize hm : (l.map fun s => (invocation s).length + 2).foldl max 0 = m at up mem
  have all : ∀ s ∈ l, (entry s).length + 2 ≤ m := fun s hs => by
    have := ((up m).1 (Nat.le_refl _)).2 _ (List.mem_map.2 ⟨s, hs, rfl⟩)
    rwa [invocation_eq] at this
  obtain ⟨u, hu, he⟩ : ∃ s ∈ l, (entry s).length + 2 = m := by
    rcases mem with h0 | h0
    · obtain ⟨c, r, rfl⟩ := List.exists_cons_of_ne_nil h
      have := all c (by simp)
      omega
    · obtain ⟨s, hs, h1⟩ := List.mem_map.1 h0
      exact ⟨s, hs, by rw [← invocation_eq]; exact h1⟩
  by_cases hm : m + 2 < 24
  · refine .inr ⟨by omega, fun s hs => ?_, u, hu, by omega⟩
    have := all s hs
    omega
  · exact .inl ⟨by omega, u, hu, by omega⟩

/-! ### The lines for an argument -/

theorem solid_head {x : Text} (h : '\n' ∉ x) (h0 : x ≠ []) (b : Text) : solid (x ++ "\n".toList ++ b) = x :: solid b := by
  rw [List.append_assoc]
  show solid (x ++ '\n' :: b) = _
  rw [solid_append, solid_line h h0]
  rfl

theorem solid_lines {k : Nat} : ∀ {ls : List Text}, (∀ x ∈ ls, x ≠ [] ∧ '\n' ∉ x) →
    solid (ls.flatMap fun l => List.replicate k ' ' ++ l ++ "\n".toList) = ls.map (List.replicate k ' ' ++ ·)
  | [], _ => solid_nil
  | l :: ls, h => by
    obtain ⟨h0, h1⟩ := h l (by simp)
    rw [List.flatMap_cons, solid_head (by simp [h1]) (by simp [h0]), solid_lines fun x hx => h x (List.mem_cons_of_mem _ hx)]
    rfl

theorem ended_lines (a x : Text) {k : Nat} : ∀ ls : List Text,
    Ended (a ++ (x ++ "\n".toList) ++ ls.flatMap fun l => List.replicate k ' ' ++ l ++ "\n".toList) := by
  intro ls
  right
  induction ls using List.reverseRecOn with
  | nil => exact ⟨a ++ x, by simp⟩
  | append_singleton ls l _ =>
    refine ⟨a ++ (x ++ "\n".toList) ++ (ls.flatMap fun l => List.replicate k ' ' ++ l ++ "\n".toList) ++ List.replicate k ' ' ++ l, ?_⟩
    simp

theorem formatAction_ok {o : Outside} (ho : Lawful o) {w : Int} {pos : Nat} (hw : (pos : Int) < w) {s : Shown} (hp : Plain s)
    (hh : Helped s) : ∃ t ls, formatAction o w pos s = .ok t ∧ Ended t ∧ t ≠ [] ∧ solid t = argLines pos s ls ∧
      HelpLines s (w - pos) ls := by
  have hn := entry_newline hp
  have hne : '\n' ∉ List.replicate 2 ' ' ++ entry s := by simp [hn]
  have h2 : List.replicate 2 ' ' = "  ".toList := by decide
  have bare : (s.help.getD [] = []) → formatAction o w pos s = .ok (List.replicate 2 ' ' ++ entry s ++ "\n".toList) := by
    intro h
    unfold formatAction
    rw [invocation_eq]
    rcases hs : s.help with _ | _ | ⟨c, r⟩
    · rfl
    · rfl
    · rw [hs] at h
      cases h
  by_cases h0 : s.help.getD [] = []
  · refine ⟨_, [], bare h0, .inr ⟨_, rfl⟩, by simp, ?_, fun _ => rfl, fun h => absurd h0 h⟩
    have := solid_head (x := List.replicate 2 ' ' ++ entry s) hne (by simp) []
    rw [List.append_nil, solid_nil] at this
    rw [this, h2]
    rfl
  · obtain ⟨c, r, hs⟩ : ∃ c r, s.help = some (c :: r) := by
      rcases hs : s.help with _ | _ | ⟨c, r⟩
      · exact absurd (by rw [hs]; rfl) h0
      · exact absurd (by rw [hs]; rfl) h0
      · exact ⟨c, r, rfl⟩
    obtain ⟨hpc, d, hd, hdw⟩ : '%' ∉ c :: r ∧ ∃ d ∈ c :: r, ¬ White d := (hh _ hs).resolve_left (by simp)
    obtain ⟨ls, e1, e2⟩ := splitLines_ok ho (c :: r) (w := w - pos) (by omega)
    have hls : ls ≠ [] := by
      rintro rfl
      have e := e2.letters
      have : d ∈ letters (c :: r) := List.mem_filter.2 ⟨hd, by simpa using hdw⟩
      rw [← e] at this
      simp [letters] at this
    obtain ⟨l, ls, rfl⟩ := List.exists_cons_of_ne_nil hls
    obtain ⟨hl0, -, hln⟩ := e2.width l (by simp)
    have hrest : ∀ x ∈ ls, x ≠ [] ∧ '\n' ∉ x := fun x hx => by
      obtain ⟨h1, -, h2⟩ := e2.width x (List.mem_cons_of_mem _ hx)
      exact ⟨h1, h2⟩
    have hlines : HelpLines s (w - pos) (l :: ls) := by
      unfold HelpLines
      rw [hs]
      exact ⟨fun h => by simp at h, fun _ => e2⟩
    unfold formatAction
    rw [hs, invocation_eq]
    dsimp only
    simp only [bind, Except.bind]
    rw [if_neg hpc]
    rw [e1]
    dsimp only
    by_cases hshort : ((entry s).length : Int) ≤ (pos : Int) - 2 - 2
    · have hd : decide (((entry s).length : Int) ≤ (pos : Int) - 2 - 2) = true := by simpa using hshort
      rw [hd]
      simp only [if_true]
      refine ⟨_, l :: ls, rfl, ended_lines _ _ _, by simp, ?_, hlines⟩
      have e : List.replicate 2 ' ' ++ entry s ++ List.replicate (pos - 2 - 2 - (entry s).length) ' ' ++ List.replicate 2 ' ' ++
          (List.replicate 0 ' ' ++ l ++ "\n".toList) =
          ("  ".toList ++ entry s ++ List.replicate (pos - ("  ".toList ++ entry s).length) ' ' ++ l) ++ "\n".toList := by
        have : pos - ("  ".toList ++ entry s).length = (pos - 2 - 2 - (entry s).length) + 2 := by
          have : ("  ".toList ++ entry s).length = 2 + (entry s).length := by simp; omega
          omega
        rw [this, List.replicate_add, h2]
        simp
      rw [e, solid_head (by simp [hn, hln]) (by simp), solid_lines hrest]
      unfold argLines
      dsimp only
      rw [if_pos (by simp; omega)]
    · have hd : decide (((entry s).length : Int) ≤ (pos : Int) - 2 - 2) = false := by simpa using hshort
      rw [hd]
      simp only [Bool.false_eq_true, if_false]
      refine ⟨_, l :: ls, rfl, ended_lines _ _ _, by simp, ?_, hlines⟩
      have e : List.replicate 2 ' ' ++ entry s ++ "\n".toList ++ (List.replicate pos ' ' ++ l ++ "\n".toList) ++
            (ls.flatMap fun l => List.replicate pos ' ' ++ l ++ "\n".toList) =
          (List.replicate 2 ' ' ++ entry s) ++ "\n".toList ++
            ((l :: ls).flatMap fun l => List.replicate pos ' ' ++ l ++ "\n".toList) := by simp
      rw [e, solid_head hne (by simp), solid_lines (by
        intro x hx
        rcases List.mem_cons.1 hx with rfl | hx
        · exact ⟨hl0, hln⟩
        · exact hrest x hx)]
      unfold argLines
      dsimp only
      rw [if_neg (by simp; omega), h2]

theorem formatAction_narrow {o : Outside} (ho : Lawful o) {w : Int} {pos : Nat} (hw : w ≤ pos) {s : Shown} {h : Text}
    (hs : s.help = some h) (h0 : h ≠ []) (hpc : '%' ∉ h) : formatAction o w pos s = .error .valueError := by
  obtain ⟨c, r, rfl⟩ := List.exists_cons_of_ne_nil h0
  unfold formatAction
  rw [hs]
  dsimp only
  simp only [bind, Except.bind]
  rw [if_neg hpc]
  rw [splitLines_narrow ho _ (by omega)]

theorem formatActions_ok {o : Outside} {w : Int} {pos : Nat} {f : Shown → List Text} : ∀ {l : List Shown},
    (∀ s ∈ l, ∃ t, formatAction o w pos s = .ok t ∧ Ended t ∧ t ≠ [] ∧ solid t = argLines pos s (f s)) →
    ∃ ts, formatActions o w pos l = .ok ts ∧ (∀ t ∈ ts, Ended t) ∧ (ts.flatten = [] ↔ l = []) ∧
      ts.flatMap solid = l.flatMap fun s => argLines pos s (f s)
  | [], _ => ⟨[], rfl, by simp, by simp, rfl⟩
  | s :: l, h => by
    obtain ⟨t, h1, h2, h3, h4⟩ := h s (by simp)
    obtain ⟨ts, i1, i2, -, i4⟩ := formatActions_ok fun u hu => h u (List.mem_cons_of_mem _ hu)
    refine ⟨t :: ts, ?_, ?_, by simp [h3], ?_⟩
    · unfold formatActions
      simp only [bind, Except.bind]
      rw [h1]
      dsimp only
      rw [i1]
    · intro x hx
      rcases List.mem_cons.1 hx with rfl | hx
      · exact h2
      · exact i2 x hx
    · rw [List.flatMap_cons, List.flatMap_cons, h4, i4]

theorem formatActions_narrow {o : Outside} (ho : Lawful o) {w : Int} {pos : Nat} (hw : w ≤ pos) : ∀ {l : List Shown},
    (∀ s ∈ l, ∀ h, s.help = some h → '%' ∉ h) → (∃ s ∈ l, ∃ h, s.help = some h ∧ h ≠ []) →
    formatActions o w pos l = .error .valueError
  | [], _, h => by obtain ⟨s, hs, _⟩ := h; cases hs
  | s :: l, hp, he => by
    unfold formatActions
    simp only [bind, Except.bind]
    by_cases h0 : ∃ h, s.help = some h ∧ h ≠ []
    · obtain ⟨h, e, h0⟩ := h0
      rw [formatAction_narrow ho hw e h0 (hp s (by simp) h e)]
    · have hl : ∃ s ∈ l, ∃ h, s.help = some h ∧ h ≠ [] := by
        obtain ⟨u, hu, e⟩ := he
        rcases List.mem_cons.1 hu with rfl | hu
        · exact absurd e h0
        · exact ⟨u, hu, e⟩
      have : ∃ t, formatAction o w pos s = .ok t := by
        unfold formatAction
        rcases hs : s.help with _ | _ | ⟨c, r⟩
        · exact ⟨_, rfl⟩
        · exact ⟨_, rfl⟩
        · exact absurd ⟨_, hs, by simp⟩ h0
      obtain ⟨t, e⟩ := this
      rw [e]
      dsimp only
      rw [formatActions_narrow ho hw (fun u hu => hp u (List.mem_cons_of_mem _ hu)) hl]

theorem formatActions_free {o : Outside} {w : Int} {pos : Nat} : ∀ {l : List Shown}, (∀ s ∈ l, ∀ h, s.help = some h → h = []) →
    ∃ ts, formatActions o w pos l = .ok ts
  | [], _ => ⟨[], rfl⟩
  | s :: l, h => by
    obtain ⟨ts, e⟩ := formatActions_free (o := o) (w := w) (pos := pos) fun u hu => h u (List.mem_cons_of_mem _ hu)
    have : ∃ t, formatAction o w pos s = .ok t := by
      unfold formatAction
      rcases hs : s.help with _ | _ | ⟨c, r⟩
      · exact ⟨_, rfl⟩
      · exact ⟨_, rfl⟩
      · exact absurd (h s (by simp) _ hs) (by simp)
    obtain ⟨t, e'⟩ := this
    refine ⟨t :: ts, ?_⟩
    unfold formatActions
    simp only [bind, Except.bind]
    rw [e']
    dsimp only
    rw [e]

/-! ### Descriptions and the whole -/

theorem formatText_ok {o : Outside} (ho : Lawful o) (raw : Bool) {w : Int} (hw : 0 < w) (d : Text) :
    ∃ t ls, formatText o raw w d = .ok t ∧ Ended t ∧ solid t = ls ∧ (raw = true → ls = solid d) ∧ (raw = false → Wraps d w ls) := by
  have key : ∀ x : Text, solid (x ++ "\n\n".toList) = solid x := fun x => by
    show solid (x ++ '\n' :: ['\n']) = _
    rw [solid_append]
    have : solid ['\n'] = [] := by decide
    rw [this, List.append_nil]
  have e : ∀ x : Text, Ended (x ++ "\n\n".toList) := fun x => .inr ⟨x ++ "\n".toList, by simp⟩
  unfold formatText
  simp only [bind, Except.bind]
  cases raw
  · obtain ⟨ls, h1, h2⟩ := splitLines_ok ho d hw
    rw [h1]
    simp only [Bool.false_eq_true, if_false]
    refine ⟨_, ls, rfl, e _, ?_, fun h => by simp at h, fun _ => h2⟩
    rw [key]
    have : ∀ ls : List Text, (∀ x ∈ ls, x ≠ [] ∧ '\n' ∉ x) → solid (['\n'].intercalate ls) = ls := by
      intro ls
      induction ls with
      | nil => intro _; exact solid_nil
      | cons a ls ih =>
        intro h
        obtain ⟨h0, h1⟩ := h a (by simp)
        rcases ls with _ | ⟨b, ls⟩
        · simpa using solid_line h1 h0
        · have := ih fun x hx => h x (List.mem_cons_of_mem _ hx)
          rw [List.intercalate_cons_cons, List.append_assoc]
          show solid (a ++ '\n' :: (['\n'].intercalate (b :: ls))) = _
          rw [solid_append, solid_line h1 h0, this]
          rfl
    exact this ls fun x hx => ⟨(h2.width x hx).1, (h2.width x hx).2.2⟩
  · exact ⟨_, solid d, rfl, e _, key d, fun _ => rfl, fun h => by simp at h⟩

theorem formatTexts_ok {o : Outside} (ho : Lawful o) (raw : Bool) {w : Int} (hw : 0 < w) (d : Option Text) :
    ∃ ts ls, formatTexts o raw w d = .ok ts ∧ (∀ t ∈ ts, Ended t) ∧ ts.flatMap solid = ls ∧ TextLines raw w d ls := by
  rcases d with _ | d
  · exact ⟨[], [], rfl, by simp, rfl, rfl⟩
  · obtain ⟨t, ls, h1, h2, h3, h4⟩ := formatText_ok ho raw hw d
    refine ⟨[t], ls, ?_, by simpa using h2, by simpa using h3, h4⟩
    unfold formatTexts
    simp only [bind, Except.bind]
    rw [h1]

theorem section_ok {heading : Text} (hn : '\n' ∉ heading) {ts : List Text} (he : ∀ t ∈ ts, Ended t) :
    Ended (section_ heading ts) ∧
      solid (section_ heading ts) = if ts.flatten = [] then [] else (heading ++ ":".toList) :: ts.flatMap solid := by
  unfold section_
  by_cases h : ts.flatten = []
  · rw [if_pos h, if_pos h]
    exact ⟨.inl rfl, solid_nil⟩
  · rw [if_neg h, if_neg h]
    refine ⟨.inr ⟨_, rfl⟩, ?_⟩
    show solid (_ ++ ['\n']) = _
    have hc : ":\n".toList = ":".toList ++ "\n".toList := by decide
    rw [solid_end, hc]
    have : "\n".toList ++ heading ++ (":".toList ++ "\n".toList) ++ ts.flatten =
        '\n' :: ((heading ++ ":".toList) ++ "\n".toList ++ ts.flatten) := by simp
    rw [this, solid_newline, solid_head (by simp [hn]) (by simp), solid_flatten he]

theorem helpText_ok {o : Outside} (ho : Lawful o) (raw : Bool) {columns : Int} {prog : Text} (hprog : prog ≠ []) (hprog' : '\n' ∉ prog)
    (description epilog : Option Text) {l : List Shown} (hl : ∀ s ∈ l, Plain s) (hh : ∀ s ∈ l, Helped s) {k : Nat} (hk : Column l k)
    (hw : (k : Int) < columns - 2) :
    ∃ t u f d e, helpText o raw columns prog description epilog l = .ok t ∧
      Layout (columns - 2) prog
        ((l.filter fun s => s.arg.names ≠ []).flatMap units ++ (l.filter fun s => s.arg.names = []).flatMap units) u ∧
      solid t = solid u ++ d ++ sectionLines "positional arguments:".toList (l.filter fun s => s.arg.names = []) k f ++
        sectionLines "optional arguments:".toList (l.filter fun s => s.arg.names ≠ []) k f ++ e ∧
      (∀ s ∈ l, HelpLines s (columns - 2 - k) (f s)) ∧ TextLines raw (columns - 2) description d ∧
      TextLines raw (columns - 2) epilog e := by
  obtain ⟨u, h1, h2⟩ := formatUsage_laid (columns - 2) hprog hl
  obtain ⟨u', hu1, hu2, -⟩ := finish_laid hprog hprog' (fun u hu => by
    rcases List.mem_append.1 hu with hu | hu
    all_goals
      obtain ⟨s, hs, hu⟩ := List.mem_flatMap.1 hu
      exact tidy_units (hl s (List.mem_filter.1 hs).1) u hu) h2
  have hw0 : (0 : Int) < columns - 2 := by omega
  obtain ⟨ds, d, d1, d2, d3, d4⟩ := formatTexts_ok ho raw hw0 description
  obtain ⟨es, e, e1, e2, e3, e4⟩ := formatTexts_ok ho raw hw0 epilog
  have hf : ∀ s, ∃ ls, s ∈ l → (∃ t, formatAction o (columns - 2) k s = .ok t ∧ Ended t ∧ t ≠ [] ∧ solid t = argLines k s ls) ∧
      HelpLines s (columns - 2 - k) ls := by
    intro s
    by_cases hs : s ∈ l
    · obtain ⟨t, ls, h1, h2, h3, h4, h5⟩ := formatAction_ok ho hw (hl s hs) (hh s hs)
      exact ⟨ls, fun _ => ⟨⟨t, h1, h2, h3, h4⟩, h5⟩⟩
    · exact ⟨[], fun h => absurd h hs⟩
  choose f hf using hf
  obtain ⟨ps, p1, p2, p3, p4⟩ := formatActions_ok (f := f) (l := l.filter fun s => s.arg.names = []) fun s hs =>
    (hf s (List.mem_filter.1 hs).1).1
  obtain ⟨qs, q1, q2, q3, q4⟩ := formatActions_ok (f := f) (l := l.filter fun s => s.arg.names ≠ []) fun s hs =>
    (hf s (List.mem_filter.1 hs).1).1
  obtain ⟨sp1, sp2⟩ := section_ok (heading := "positional arguments".toList) (by decide) p2
  obtain ⟨sq1, sq2⟩ := section_ok (heading := "optional arguments".toList) (by decide) q2
  refine ⟨finish ([u] ++ ds ++ [section_ "positional arguments".toList ps, section_ "optional arguments".toList qs] ++ es),
    u' ++ "\n".toList, f, d, e, ?_, hu2, ?_, fun s hs => (hf s hs).2, d4, e4⟩
  · unfold helpText
    rw [column_eq hk]
    simp only [bind, Except.bind]
    rw [h1]
    dsimp only
    rw [d1]
    dsimp only
    rw [p1]
    dsimp only
    rw [q1]
    dsimp only
    rw [e1]
  · rw [solid_finish, List.flatMap_append, List.flatMap_append, List.flatMap_append, e3, d3]
    · have hu : [u].flatMap solid = solid (u' ++ "\n".toList) := by
        rw [List.flatMap_singleton, hu1]
        have : u' ++ "\n\n".toList = (u' ++ "\n".toList) ++ ['\n'] := by simp
        rw [this, solid_end]
      rw [hu]
      have hs : ∀ {h : Text} {ts : List Text} {m : List Shown}, (ts.flatten = [] ↔ m = []) →
          ts.flatMap solid = m.flatMap (fun s => argLines k s (f s)) →
          (if ts.flatten = [] then [] else h :: ts.flatMap solid) = sectionLines h m k f := by
        intro h ts m a b
        unfold sectionLines
        by_cases hm : m = []
        · rw [if_pos (a.2 hm), if_pos hm]
        · rw [if_neg fun h => hm (a.1 h), if_neg hm, b]
      rw [List.flatMap_cons, List.flatMap_singleton, sp2, sq2, hs p3 p4, hs q3 q4]
      have c1 : "positional arguments".toList ++ ":".toList = "positional arguments:".toList := by decide
      have c2 : "optional arguments".toList ++ ":".toList = "optional arguments:".toList := by decide
      rw [c1, c2]
      simp only [List.append_assoc]
    · intro x hx
      simp only [List.mem_append, List.mem_cons, List.not_mem_nil, or_false] at hx
      rcases hx with ((rfl | hx) | (rfl | rfl)) | hx
      · exact .inr ⟨u' ++ "\n".toList, by rw [hu1]; simp⟩
      · exact d2 x hx
      · exact sp1
      · exact sq1
      · exact e2 x hx

theorem helpText_narrow {o : Outside} (ho : Lawful o) {columns : Int} {prog : Text} (hprog : prog ≠ []) {l : List Shown}
    (raw : Bool) (description epilog : Option Text)
    (hl : ∀ s ∈ l, Plain s) (hp : ∀ s ∈ l, ∀ h, s.help = some h → '%' ∉ h) {k : Nat} (hk : Column l k)
    (hw : columns - 2 ≤ k) (he : ∃ s ∈ l, ∃ h, s.help = some h ∧ h ≠ []) :
    helpText o raw columns prog description epilog l = .error .valueError := by
  obtain ⟨u, h1, -⟩ := formatUsage_laid (columns - 2) hprog hl
  have desc : formatTexts o raw (columns - 2) description = .error .valueError ∨
      ∃ ds, formatTexts o raw (columns - 2) description = .ok ds := by
    rcases description with _ | d
    · exact .inr ⟨[], rfl⟩
    · unfold formatTexts formatText
      simp only [bind, Except.bind]
      cases raw
      · simp only [Bool.false_eq_true, if_false]
        by_cases hw0 : columns - 2 ≤ 0
        · rw [splitLines_narrow ho d hw0]
          exact .inl rfl
        · obtain ⟨ls, e, -⟩ := splitLines_ok ho d (w := columns - 2) (by omega)
          rw [e]
          exact .inr ⟨_, rfl⟩
      · exact .inr ⟨_, rfl⟩
  unfold helpText
  rw [column_eq hk]
  simp only [bind, Except.bind]
  rw [h1]
  dsimp only
  rcases desc with e | ⟨ds, e⟩
  · rw [e]
  rw [e]
  dsimp only
  by_cases hpos : ∃ s ∈ l.filter fun s => s.arg.names = [], ∃ h, s.help = some h ∧ h ≠ []
  · rw [formatActions_narrow ho hw (fun s hs => hp s (List.mem_filter.1 hs).1) hpos]
  · obtain ⟨ps, e⟩ := formatActions_free (o := o) (w := columns - 2) (pos := k) (l := l.filter fun s => s.arg.names = [])
      fun s hs h hh => by
        by_contra h0
        exact hpos ⟨s, hs, h, hh, h0⟩
    rw [e]
    dsimp only
    have : ∃ s ∈ l.filter fun s => s.arg.names ≠ [], ∃ h, s.help = some h ∧ h ≠ [] := by
      obtain ⟨s, hs, h, hh, h0⟩ := he
      refine ⟨s, List.mem_filter.2 ⟨hs, ?_⟩, h, hh, h0⟩
      by_contra hn
      exact hpos ⟨s, List.mem_filter.2 ⟨hs, by simpa using hn⟩, h, hh, h0⟩
    rw [formatActions_narrow ho hw (fun s hs => hp s (List.mem_filter.1 hs).1) this]

end Verif.ArgHelp
