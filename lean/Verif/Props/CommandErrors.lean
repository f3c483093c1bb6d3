import Verif.Lemmas.ArgSays
import Verif.Props.CommandLine
import Verif.Props.UsageHelp

/-! C86: why command lines are refused, and what is said about it. -/
namespace Verif.Props.CommandErrors
open Verif Verif.Argparse Verif.ArgHelp Verif.Spec.CommandLine Verif.Spec.UsageHelp Verif.Spec.CommandErrors

/-- A command line that does not give a namespace asks for the help or the version, or is refused with a reason that is true. -/
theorem refused {p : Parser} (hp : WF p) {args : List Text} {x : Stop} (h : parseArgs p args = .error x) : Why p args x :=
  parse_why hp h

/-- A string is called ambiguous, with these names, if and only if it is the first, before a `--`, that stands for two options or more,
and these are all the names. Nothing else about the command line matters. -/
theorem ambiguous_iff {p : Parser} (hp : WF p) {args : List Text} {s : Text} {l : List Text} :
    parseArgs p args = .error (.ambiguous s l) ↔
      ∃ x y, args = x ++ s :: y ∧ Ambiguous p s l ∧ dashes ∉ x ∧ ∀ w ∈ x, ¬ ∃ m, Ambiguous p w m :=
  parse_ambiguous hp

/-- Which names are listed for an ambiguous string, and in which order, is determined by the string. -/
theorem ambiguous_unique {p : Parser} (hp : WF p) {s : Text} {l m : List Text} (hl : Ambiguous p s l) (hm : Ambiguous p s m) : l = m := by
  have h1 := (ambiguous_iff hp (args := [s]) (l := l)).2 ⟨[], [], rfl, hl, by simp, by simp⟩
  have h2 := (ambiguous_iff hp (args := [s]) (l := m)).2 ⟨[], [], rfl, hm, by simp, by simp⟩
  have := h1.symm.trans h2
  simpa using this

/-- How a command line ends: with a namespace; with the help or the version and status 0, if it asks for them; or else with the
complete usage, a true reason in its words, and status 2. -/
theorem ends {o : Outside} (repr : Text → Text) (raw : Bool) (columns : Int) {prog : Text} (hprog : prog ≠ []) (hprog' : '\n' ∉ prog)
    (description epilog version : Option Text) {l : List Shown} (hl : ∀ s ∈ l, Plain s) (hp : WF (l.map (·.arg))) (args : List Text) :
    (∃ ns, parseArgs (l.map (·.arg)) args = .ok ns ∧
      parseOrExit o repr raw columns prog description epilog version l args = .ok (.ok ns)) ∨
    (Why (l.map (·.arg)) args .help ∧ parseOrExit o repr raw columns prog description epilog version l args =
      (helpText o raw columns prog description epilog l).map fun t => .error ⟨t, 0⟩) ∨
    (Why (l.map (·.arg)) args .version ∧ parseOrExit o repr raw columns prog description epilog version l args =
      (versionText o raw columns version).map fun t => .error ⟨t, 0⟩) ∨
    ∃ x u m, x ≠ .help ∧ x ≠ .version ∧ Why (l.map (·.arg)) args x ∧ Says repr l x m ∧
      Layout (columns - 2) prog
        ((l.filter fun s => s.arg.names ≠ []).flatMap units ++ (l.filter fun s => s.arg.names = []).flatMap units) u ∧
      parseOrExit o repr raw columns prog description epilog version l args =
        .ok (.error ⟨u ++ prog ++ ": error: ".toList ++ m ++ "\n".toList, 2⟩) := by
  obtain ⟨u, hu, hlay⟩ := UsageHelp.usage_complete columns hprog hprog' hl
  unfold parseOrExit
  rcases hr : parseArgs (l.map (·.arg)) args with x | ns
  · have hw := refused hp hr
    have key : ∀ (h1 : x ≠ .help) (h2 : x ≠ .version), _ := fun h1 h2 => why_says repr hw h1 h2
    right
    cases x with
    | help =>
      left
      refine ⟨hw, ?_⟩
      rw [hr]
      simp only [bind, Except.bind]
      cases helpText o raw columns prog description epilog l <;> rfl
    | version =>
      right; left
      refine ⟨hw, ?_⟩
      rw [hr]
      simp only [bind, Except.bind]
      cases versionText o raw columns version <;> rfl
    | crash => exact hw.elim
    | fuel => exact hw.elim
    | _ =>
      right; right
      refine ⟨_, u, _, by simp, by simp, hw, key (by simp) (by simp), hlay, ?_⟩
      rw [hr]
      simp only [bind, Except.bind]
      rw [hu]
      rfl
  · exact .inl ⟨ns, hr, by rw [hr]⟩

/-! ### The tools -/

private theorem parser_mem {t : Tool} (h : t ∈ allTools) : t.parser ∈ tools := by
  have : allTools.all fun t => decide (t.parser ∈ tools) := by decide +kernel
  simpa using List.all_eq_true.1 this t h

private instance (t : Text) : Decidable (PlainText t) := by unfold PlainText; infer_instance

private instance (s : Shown) : Decidable (Plain s) :=
  decidable_of_iff ((∀ n ∈ s.arg.names, PlainText n) ∧ (s.arg.nargs ≠ .num 0 → PlainText (label s)) ∧
    (s.arg.names = [] → s.arg.nargs ≠ .num 0)) ⟨fun ⟨a, b, c⟩ => ⟨a, b, c⟩, fun ⟨a, b, c⟩ => ⟨a, b, c⟩⟩

private def plain (t : Tool) : Bool :=
  match t.shown with
  | .error _ => false
  | .ok l => decide (l.map (·.arg) = t.parser) && l.all fun s => decide (Plain s)

private theorem all_plain : allTools.all plain = true := by decide +kernel

/-- The arguments of a tool can be shown, and its parser is well-formed: all of the above is about the tools. -/
theorem tools_plain {t : Tool} (h : t ∈ allTools) {l : List Shown} (hl : t.shown = .ok l) :
    (∀ s ∈ l, Plain s) ∧ WF (l.map (·.arg)) := by
  have := List.all_eq_true.1 all_plain t h
  unfold plain at this
  rw [hl] at this
  simp only [Bool.and_eq_true, decide_eq_true_eq, List.all_eq_true] at this
  refine ⟨this.2, ?_⟩
  rw [this.1]
  exact (CommandLine.tools_wf _ (parser_mem h)).1

/-- How a command line of a tool ends, in any terminal: with a namespace; with the version and status 0, or the help (which is a
ValueError in a terminal with less than 20 columns, and is shown with status 0 in one with 27 or more), if it asks for them; or else
with the complete usage, a true reason in its words, and status 2. -/
theorem tools_end {t : Tool} (h : t ∈ allTools) {l : List Shown} (hl : t.shown = .ok l) {o : Outside} (ho : Lawful o)
    (repr : Text → Text) (raw : Bool) (columns : Int) {prog : Text} (hprog : prog ≠ []) (hprog' : '\n' ∉ prog)
    (description epilog version : Option Text) (args : List Text) :
    (∃ ns, parseArgs t.parser args = .ok ns ∧
      parseOrExit o repr raw columns prog description epilog version l args = .ok (.ok ns)) ∨
    (Why t.parser args .help ∧
      (27 ≤ columns → ∃ text, helpText o raw columns prog description epilog l = .ok text ∧
        parseOrExit o repr raw columns prog description epilog version l args = .ok (.error ⟨text, 0⟩)) ∧
      (columns < 20 → parseOrExit o repr raw columns prog description epilog version l args = .error .valueError)) ∨
    (Why t.parser args .version ∧ (2 < columns → ∃ text, TextLines raw (columns - 2) version (solid text) ∧
      parseOrExit o repr raw columns prog description epilog version l args = .ok (.error ⟨text, 0⟩))) ∨
    ∃ x u m, x ≠ .help ∧ x ≠ .version ∧ Why t.parser args x ∧ Says repr l x m ∧
      Layout (columns - 2) prog
        ((l.filter fun s => s.arg.names ≠ []).flatMap units ++ (l.filter fun s => s.arg.names = []).flatMap units) u ∧
      parseOrExit o repr raw columns prog description epilog version l args =
        .ok (.error ⟨u ++ prog ++ ": error: ".toList ++ m ++ "\n".toList, 2⟩) := by
  have he : l.map (·.arg) = t.parser := by
    obtain ⟨m, h1, h2, h3⟩ := UsageHelp.tools_declared h
    have := (UsageHelp.declared _ _).2 ⟨h1, h2⟩
    obtain rfl := Except.ok.inj (hl.symm.trans this)
    exact h3
  obtain ⟨h1, h2⟩ := tools_plain h hl
  rcases ends (o := o) repr raw columns hprog hprog' description epilog version h1 h2 args with h3 | ⟨h3, h4⟩ | ⟨h3, h4⟩ | h3
  · rw [he] at h3
    exact .inl h3
  · rw [he] at h3
    refine .inr (.inl ⟨h3, fun hc => ?_, fun hc => ?_⟩)
    · obtain ⟨text, -, -, -, -, -, h5, -⟩ := (UsageHelp.tools_help h hl ho raw columns hprog hprog' description epilog).1 hc
      exact ⟨text, h5, by rw [h4, h5]; rfl⟩
    · rw [h4, (UsageHelp.tools_help h hl ho raw columns hprog hprog' description epilog).2 hc]
      rfl
  · rw [he] at h3
    refine .inr (.inr (.inl ⟨h3, fun hc => ?_⟩))
    obtain ⟨text, h5, h6⟩ := versionText_ok ho raw (columns := columns) (by omega) version
    exact ⟨text, h6, by rw [h4, h5]; rfl⟩
  · rw [he] at h3
    exact .inr (.inr (.inr h3))

private theorem all_singles : tools.all fun p => decide (∀ a ∈ p, a.names = [] → a.nargs = .one ∨ a.nargs = .plus) := by decide +kernel

/-- A command line of a tool has too few arguments only if the strings that are left over, if there are any, look like unknown options or
are `--`: there is none that a missing argument could have had. -/
theorem tools_few {p : Parser} (hp : p ∈ tools) {args : List Text} (h : parseArgs p args = .error .tooFew) :
    ∃ (parts : List (Part ⊕ Text)) (missing : List Arg), missing ≠ [] ∧ parts.flatMap words = args ∧
      parts.flatMap positional ++ missing = p.filter (fun a => a.names = []) ∧ (∀ q, .inl q ∈ parts → q.Sound p) ∧
      ∀ x, .inr x ∈ parts → Unknown p x ∨ x = dashes := by
  obtain ⟨missing, left, hm, parts, h1, -, h3, h4, h5⟩ := refused (CommandLine.tools_wf p hp).1 h
  refine ⟨parts, missing, hm, h1, h3, h4, fun x hx => ?_⟩
  obtain ⟨P, Q, rfl⟩ := List.append_of_mem hx
  have hs : Singles p := by simpa [Singles] using List.all_eq_true.1 all_singles p hp
  rcases h5 hs P x Q rfl with h | h | h
  · exact .inl h
  · exact .inr h
  · rw [← h, List.flatMap_append, List.append_assoc] at h3
    have := List.append_cancel_left (h3.trans (List.append_nil _).symm)
    exact absurd (List.append_eq_nil_iff.1 this).2 hm

/-! ### Examples -/

private def quoted (t : Text) : Text := '\'' :: t ++ ['\'']

private def wide : Outside where
  wrap t w := if w ≤ 0 then .error .valueError else .ok [t]
  percent := .ok

private def words (l : List String) : List Text := l.map String.toList

/-- The last line of what a tool writes, and the status. -/
private def lastLine (t : Tool) (prog : String) (args : List String) : Option (List Text × Nat) :=
  match t.shown with
  | .error _ => none
  | .ok l => match parseOrExit wide quoted true 80 prog.toList none none (some "0.9".toList) l (words args) with
    | .ok (.error e) => some ((solid e.output).getLast?.toList, e.status)
    | _ => none

private def prints (t : Tool) (prog : String) (args : List String) (m : String) (n : Nat) : Bool :=
  decide (lastLine t prog args = some ([m.toList], n))

-- all of a refusal
example : (match pgcCpTool.shown with
    | .error _ => none
    | .ok l => some (parseOrExit wide quoted true 80 "pgc_cp.py".toList none none none l (words ["a"]) matches .ok (.error ⟨_, 2⟩))) =
    some true := by decide +kernel

-- the reasons
example : prints pgcCpTool "pgc_cp.py" ["a"] "pgc_cp.py: error: too few arguments" 2 = true := by decide +kernel
example : prints ptcEvalTool "ptc_eval.py" ["--t", "a"] "ptc_eval.py: error: ambiguous option: --t could match --true_corpora, --tag" 2 = true := by
  decide +kernel
example : prints ptcEvalTool "ptc_eval.py" ["-t"] "ptc_eval.py: error: argument -t/--true_corpora: expected at least one argument" 2 = true := by
  decide +kernel
example : prints pgcChdirTool "pgc_chdir.py" ["x", "-p", "a"]
    "pgc_chdir.py: error: argument -p/--path-prefix-pair: expected 2 argument(s)" 2 = true := by decide +kernel
example : prints pgcSplitTool "pgc_split.py" ["x", "-p", "two"] "pgc_split.py: error: argument -p/--parts: invalid int value: 'two'" 2 = true := by
  decide +kernel
example : prints pgcStatsTool "pgc_stats.py" ["x", "-t", "2"]
    "pgc_stats.py: error: argument -t/--token_diff_threshold: 'int' is not callable" 2 = true := by decide +kernel
example : prints ptcDiffTool "ptc_diff.py" ["a", "b", "c", "-q"] "ptc_diff.py: error: unrecognized arguments: c -q" 2 = true := by
  decide +kernel

-- the characters that are named as ignored are those after the first that is no option
example : prints pgcChdirTool "pgc_chdir.py" ["-Vxyz", "a"] "pgc_chdir.py: error: argument -V/--verbose: ignored explicit argument 'yz'" 2 = true ∧
    prints pgcChdirTool "pgc_chdir.py" ["-Vx", "a"] "pgc_chdir.py: error: argument -V/--verbose: ignored explicit argument None" 2 = true := by
  decide +kernel

-- the version, and no help in a terminal that is too narrow
example : prints pgcChdirTool "pgc_chdir.py" ["-Vv"] "0.9" 0 = true := by decide +kernel
example : (match pgcZipTool.shown with
    | .error _ => false
    | .ok l => parseOrExit wide quoted true 19 "pgc_zip.py".toList none none none l (words ["-h"]) matches .error .valueError) = true := by
  decide +kernel

-- `ambiguous_iff`, `tools_few`: strings to which they apply
example : Ambiguous ptcEval "--t".toList ["--true_corpora".toList, "--tag".toList] := by
  obtain ⟨x, y, h1, h2, h3⟩ := (ambiguous_iff (CommandLine.tools_wf ptcEval (by simp [tools])).1 (args := [['-', '-', 't']])).1
    (show parseArgs ptcEval [['-', '-', 't']] = .error (.ambiguous ['-', '-', 't'] (words ["--true_corpora", "--tag"])) by decide +kernel)
  exact h2
example : parseArgs pgcCp (words ["-q", "a"]) = .error .tooFew := by decide +kernel

end Verif.Props.CommandErrors
