import Verif.Model.ArgDecls
import Verif.Lemmas.ArgDeclare
import Verif.Lemmas.ArgHelpLines

/-! C85: usage and help of the tools; declaring arguments. -/
namespace Verif.Props.UsageHelp
open Verif Verif.Argparse Verif.ArgHelp Verif.Spec.UsageHelp

/-- Calls of `add_argument` are accepted, and give these arguments in the order of the calls, if and only if each call declares its
argument and no name is used twice. -/
theorem declared (ds : List Decl) (l : List Shown) : declare [] ds = .ok l ↔ List.Forall₂ Declares ds l ∧ Apart l := by
  rw [declare_iff]
  constructor
  · rintro ⟨m, rfl, h1, h2, -⟩
    exact ⟨h1, h2⟩
  · rintro ⟨h1, h2⟩
    exact ⟨l, rfl, h1, h2, by simp⟩

/-- What is shown as the usage: the options first, then the positional arguments, each of them with its values, laid out for the width
of the terminal whatever it is. -/
theorem usage_complete (columns : Int) {prog : Text} (hp : prog ≠ []) (hp' : '\n' ∉ prog) {l : List Shown} (hl : ∀ s ∈ l, Plain s) :
    ∃ t, usageText columns prog l = .ok t ∧ Layout (columns - 2) prog
      ((l.filter fun s => s.arg.names ≠ []).flatMap units ++ (l.filter fun s => s.arg.names = []).flatMap units) t :=
  usageText_ok columns hp hp' hl

/-- The lines of the help, in a terminal that is wide enough: the usage, the description, the two sections with a block for each
argument in the order of the calls, and the epilog. Nothing is lost of the help texts but white space. -/
theorem help_shows {o : Outside} (ho : Lawful o) (raw : Bool) {columns : Int} {prog : Text} (hprog : prog ≠ []) (hprog' : '\n' ∉ prog)
    (description epilog : Option Text) {l : List Shown} (hl : ∀ s ∈ l, Plain s) (hh : ∀ s ∈ l, Helped s) {k : Nat} (hk : Column l k)
    (hw : (k : Int) < columns - 2) :
    ∃ t u f d e, helpText o raw columns prog description epilog l = .ok t ∧
      Layout (columns - 2) prog
        ((l.filter fun s => s.arg.names ≠ []).flatMap units ++ (l.filter fun s => s.arg.names = []).flatMap units) u ∧
      solid t = solid u ++ d ++ sectionLines "positional arguments:".toList (l.filter fun s => s.arg.names = []) k f ++
        sectionLines "optional arguments:".toList (l.filter fun s => s.arg.names ≠ []) k f ++ e ∧
      (∀ s ∈ l, HelpLines s (columns - 2 - k) (f s)) ∧ TextLines raw (columns - 2) description d ∧
      TextLines raw (columns - 2) epilog e :=
  helpText_ok ho raw hprog hprog' description epilog hl hh hk hw

/-- In a terminal that leaves no room for the help texts, the help is an error. -/
theorem help_narrow {o : Outside} (ho : Lawful o) (raw : Bool) {columns : Int} {prog : Text} (hprog : prog ≠ [])
    (description epilog : Option Text) {l : List Shown} (hl : ∀ s ∈ l, Plain s) (hp : ∀ s ∈ l, ∀ h, s.help = some h → '%' ∉ h) {k : Nat}
    (hk : Column l k) (hw : columns - 2 ≤ k) (he : ∃ s ∈ l, ∃ h, s.help = some h ∧ h ≠ []) :
    helpText o raw columns prog description epilog l = .error .valueError :=
  helpText_narrow ho hprog raw description epilog hl hp hk hw he

/-- Parsers have a column for the help texts, and only one. -/
theorem column_unique {l : List Shown} (h : l ≠ []) : ∃ k, Column l k ∧ ∀ j, Column l j → j = k :=
  ⟨_, column_exists h, fun _ hj => (column_eq hj).symm⟩

/-! ### The tools -/

private instance (t : Text) : Decidable (PlainText t) := by unfold PlainText; infer_instance

private instance (s : Shown) : Decidable (Plain s) :=
  decidable_of_iff ((∀ n ∈ s.arg.names, PlainText n) ∧ (s.arg.nargs ≠ .num 0 → PlainText (label s)) ∧
    (s.arg.names = [] → s.arg.nargs ≠ .num 0)) ⟨fun ⟨a, b, c⟩ => ⟨a, b, c⟩, fun ⟨a, b, c⟩ => ⟨a, b, c⟩⟩

private def helped (s : Shown) : Bool :=
  match s.help with
  | none => true
  | some h => h = [] || ('%' ∉ h && h.any fun c => ¬ White c)

private theorem helped_iff {s : Shown} (h : helped s = true) : Helped s ∧ ∀ x, s.help = some x → '%' ∉ x := by
  unfold helped at h
  unfold Helped
  rcases hs : s.help with _ | x
  · simp
  · rw [hs] at h
    simp only [Bool.or_eq_true, decide_eq_true_eq, Bool.and_eq_true, List.any_eq_true] at h
    constructor
    · rintro y hy
      cases hy
      rcases h with h | ⟨h1, c, h2, h3⟩
      · exact .inl h
      · exact .inr ⟨h1, c, h2, h3⟩
    · rintro y hy
      cases hy
      rcases h with rfl | ⟨h1, -⟩
      · simp
      · exact h1

private def sound (t : Tool) : Bool :=
  match t.shown with
  | .error _ => false
  | .ok l => l.map (·.arg) = t.parser && l.all (fun s => decide (Plain s) && helped s) &&
      16 < helpPosition l && l.any fun s => s.help.getD [] ≠ []

private theorem all_sound : allTools.all sound = true := by decide +kernel

private theorem sound_ok {t : Tool} (h : t ∈ allTools) : ∃ l, t.shown = .ok l ∧ l.map (·.arg) = t.parser ∧
    (∀ s ∈ l, Plain s ∧ Helped s ∧ ∀ x, s.help = some x → '%' ∉ x) ∧ 16 < helpPosition l ∧ ∃ s ∈ l, ∃ x, s.help = some x ∧ x ≠ [] := by
  have := List.all_eq_true.1 all_sound t h
  unfold sound at this
  rcases hs : t.shown with e | l
  · rw [hs] at this; cases this
  · rw [hs] at this
    simp only [Bool.and_eq_true, decide_eq_true_eq, List.all_eq_true, List.any_eq_true] at this
    obtain ⟨⟨⟨h1, h2⟩, h3⟩, s, hs, h4⟩ := this
    refine ⟨l, rfl, h1, fun s hs => ⟨(h2 s hs).1, helped_iff (h2 s hs).2⟩, h3, s, hs, ?_⟩
    rcases hh : s.help with _ | x
    · rw [hh] at h4; simp at h4
    · rw [hh] at h4
      exact ⟨x, rfl, by simpa using h4⟩

/-- The calls of a tool, after those of the constructor of the parser, are accepted, and the parser is the one that C83 is about. -/
theorem tools_declared {t : Tool} (h : t ∈ allTools) : ∃ l, List.Forall₂ Declares (own t.daeso ++ t.calls) l ∧ Apart l ∧
    l.map (·.arg) = t.parser := by
  obtain ⟨l, h1, h2, -⟩ := sound_ok h
  obtain ⟨h3, h4⟩ := (declared _ l).1 h1
  exact ⟨l, h3, h4, h2⟩

/-- The usage of every tool is complete in every terminal. -/
theorem tools_usage {t : Tool} (h : t ∈ allTools) {l : List Shown} (hl : t.shown = .ok l) (columns : Int) {prog : Text}
    (hp : prog ≠ []) (hp' : '\n' ∉ prog) : ∃ u, usageText columns prog l = .ok u ∧ Layout (columns - 2) prog
      ((l.filter fun s => s.arg.names ≠ []).flatMap units ++ (l.filter fun s => s.arg.names = []).flatMap units) u := by
  obtain ⟨m, h1, -, h2, -⟩ := sound_ok h
  obtain rfl := Except.ok.inj (hl.symm.trans h1)
  exact usage_complete columns hp hp' fun s hs => (h2 s hs).1

/-- The help of every tool is shown in a terminal with 27 columns or more, and an error in one with less than 20. -/
theorem tools_help {t : Tool} (h : t ∈ allTools) {l : List Shown} (hl : t.shown = .ok l) {o : Outside} (ho : Lawful o) (raw : Bool)
    (columns : Int) {prog : Text} (hp : prog ≠ []) (hp' : '\n' ∉ prog) (description epilog : Option Text) :
    (27 ≤ columns → ∃ text u f d e k, helpText o raw columns prog description epilog l = .ok text ∧ Column l k ∧
      Layout (columns - 2) prog
        ((l.filter fun s => s.arg.names ≠ []).flatMap units ++ (l.filter fun s => s.arg.names = []).flatMap units) u ∧
      solid text = solid u ++ d ++ sectionLines "positional arguments:".toList (l.filter fun s => s.arg.names = []) k f ++
        sectionLines "optional arguments:".toList (l.filter fun s => s.arg.names ≠ []) k f ++ e ∧
      (∀ s ∈ l, HelpLines s (columns - 2 - k) (f s)) ∧ TextLines raw (columns - 2) description d ∧
      TextLines raw (columns - 2) epilog e) ∧
    (columns < 20 → helpText o raw columns prog description epilog l = .error .valueError) := by
  obtain ⟨m, h1, -, h2, h3, h4⟩ := sound_ok h
  obtain rfl := Except.ok.inj (hl.symm.trans h1)
  have h0 : l ≠ [] := by
    obtain ⟨s, hs, -⟩ := h4
    rintro rfl
    cases hs
  have hk := column_exists h0
  have hle : helpPosition l ≤ 24 := by unfold helpPosition; omega
  constructor
  · intro hc
    obtain ⟨text, u, f, d, e, i1, i2, i3, i4, i5⟩ := help_shows ho raw hp hp' description epilog (fun s hs => (h2 s hs).1)
      (fun s hs => (h2 s hs).2.1) hk (columns := columns) (by omega)
    exact ⟨text, u, f, d, e, _, i1, hk, i2, i3, i4, i5⟩
  · intro hc
    exact help_narrow ho raw hp description epilog (fun s hs => (h2 s hs).1) (fun s hs => (h2 s hs).2.2) hk (by omega) h4

/-! ### Examples -/

/-- A lawful wrapping: a line for each letter. -/
private def thin : Outside where
  wrap t w := if w ≤ 0 then .error .valueError else .ok ((letters t).map ([·]))
  percent := .ok

private theorem thin_flatten : ∀ t : Text, (t.map ([·])).flatten = t
  | [] => rfl
  | c :: t => by rw [List.map_cons, List.flatten_cons, thin_flatten t]; rfl

private theorem thin_lawful : Lawful thin where
  wraps t w hw _ := by
    refine ⟨(letters t).map ([·]), if_neg (by omega), ?_, ?_⟩
    · rw [thin_flatten]
      unfold letters
      rw [List.filter_filter]
      simp
    · intro x hx
      obtain ⟨c, hc, rfl⟩ := List.mem_map.1 hx
      refine ⟨by simp, by simp; omega, ?_⟩
      have := (List.mem_filter.1 hc).2
      have h' : ¬ White c := by simpa using this
      intro h
      rcases List.mem_singleton.1 h with rfl
      exact h' (by decide)
  narrow t w hw := if_pos hw

/-- Wrapping for texts that fit. -/
private def fits : Outside where
  wrap t w := if w ≤ 0 then .error .valueError else .ok (if t = [] then [] else [t])
  percent := .ok

-- `help_shows` and `help_narrow` apply to the tools
example : ∃ l, pgcZipTool.shown = .ok l ∧ ∃ t, helpText thin true 80 "pgc_zip.py".toList none none l = .ok t := by
  obtain ⟨l, h1, -⟩ := sound_ok (t := pgcZipTool) (by simp [allTools])
  obtain ⟨t, u, f, d, e, k, h, -⟩ :=
    (tools_help (by simp [allTools]) h1 thin_lawful true 80 (prog := "pgc_zip.py".toList) (by decide) (by decide) none none).1
      (by decide)
  exact ⟨l, h1, t, h⟩

private def shown (l : List Decl) : List Shown := (declare [] l).toOption.getD []

-- two lines of usage
example : (usageText 60 "ptc_diff.py".toList (shown (own true ++ ptcDiffTool.calls))).toOption =
    some "usage: ptc_diff.py [-h] [-v] [-t TAG] [-e ENCODING]\n                   true_corpus pred_corpus\n".toList := by
  decide +kernel

-- a help text
example : (helpText fits true 100 "pgc_zip.py".toList (some "zip\n\nand unzip".toList) none (shown (own true ++ pgcZipTool.calls))).toOption =
    some ("usage: pgc_zip.py [-h] [-v] ZIP_FILE CORPUS_FILE [CORPUS_FILE ...]\n\nzip\n\nand unzip\n\npositional arguments:\n" ++
      "  ZIP_FILE       filename of zip archive\n" ++
      "  CORPUS_FILE    parallel graph corpus filename, or quoted file name pattern for parallel graph corpora\n" ++
      "\noptional arguments:\n  -h, --help     show this help message and exit\n" ++
      "  -v, --version  show program's version number and exit\n").toList := by
  decide +kernel

-- an empty help text (of ptc_n_to_id) is no help text
example : (formatAction fits 78 24 { arg := positional "corpus" .plus, help := some [] }).toOption = some "  corpus\n".toList := by
  decide +kernel

-- but a blank one is an error
example : (formatAction fits 78 24 { arg := positional "corpus" .plus, help := some " ".toList } matches .error .indexError) = true := by
  decide +kernel

-- metavars that are not plain: parentheses around a single name are lost
example : (usageText 80 "x".toList (shown [{ names := ["--file".toList], metavar := some "FILE(S)".toList }])).toOption =
    some "usage: x [--file FILES]\n".toList := by decide +kernel

-- and a bracket is an error, but only when the usage does not fit a line
private def bracket : List Shown := shown [{ names := ["--file".toList], metavar := some "a]b".toList }, { names := ["abcdefghi".toList] }]

example : (usageText 80 "x".toList bracket).toOption = some "usage: x [--file a]b] abcdefghi\n".toList ∧
    (usageText 20 "x".toList bracket matches .error .assertionError) = true := by decide +kernel

-- a part that does not fit leaves the first line without any
example : (usageText 30 "prog".toList (shown [{ names := ["--file".toList], metavar := some "ABCDEFGHIJKLMNOPQRST".toList },
      { names := ["abcdefghi".toList] }])).toOption =
    some "usage: prog\n            [--file ABCDEFGHIJKLMNOPQRST]\n            abcdefghi\n".toList := by decide +kernel

-- declarations that are refused: a name twice, a name of dashes only, an attribute for a positional argument, `required` for one
example : (declare [] [{ names := ["-t".toList] }, { names := ["--test".toList, "-t".toList] }] matches .error (.conflict _)) = true ∧
    (declare [] [{ names := ["--".toList] }] matches .error .valueError) = true ∧
    (declare [] [{ names := ["x".toList], dest := some "y" }] matches .error .typeError) = true ∧
    (declare [] [{ names := ["x".toList], required := some true }] matches .error .typeError) = true := by decide +kernel

-- several long names: the first gives the attribute
example : (shown [{ names := ["-o".toList, "--out-file".toList, "--output".toList] }]).map (fun s => s.arg.dest) =
    [some "out_file"] := by decide +kernel

end Verif.Props.UsageHelp
