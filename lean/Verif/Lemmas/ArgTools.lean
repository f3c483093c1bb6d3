import Verif.Lemmas.ArgLine

/-! The parsers of the tools. -/
set_option linter.unusedSectionVars false
namespace Verif.Argparse
open Verif Verif.Spec.CommandLine

/-- A test that a parser can be built. -/
def buildable (p : Parser) : Bool :=
  (p.all fun a =>
    (a.names.all fun n => !n.contains '=' && match n with
      | ['-', c] => c != '-'
      | '-' :: '-' :: r => r.any (· != '-')
      | _ => false) &&
    (decide (a.dest = none) == (decide (a.act = .help) || decide (a.act = .version))) &&
    (decide (a.dest = none) == decide (a.default = none)) &&
    (match a.default with
      | some (.str _) => decide (a.ty = .identity)
      | _ => true) &&
    (decide (a.act ≠ .append) || match a.default with
      | some .none => true
      | some (.list _) => true
      | _ => false) &&
    (decide (a.names ≠ []) || (decide (a.act = .store) && match a.nargs with
      | .one => true
      | .plus => true
      | .num (_ + 1) => true
      | _ => false)) &&
    (a.required == decide (a.names = []))) &&
  decide (p.flatMap Arg.names).Nodup && decide (p.filterMap Arg.dest).Nodup

theorem buildable_wf {p : Parser} (h : buildable p = true) : WF p := by
  simp only [buildable, Bool.and_eq_true, List.all_eq_true, decide_eq_true_eq, Bool.or_eq_true, beq_iff_eq] at h
  obtain ⟨⟨h, h1⟩, h2⟩ := h
  refine ⟨?_, ?_, h1, h2, ?_, ?_, ?_, ?_, ?_, ?_⟩
  · intro a ha n hn
    have := ((h a ha).1.1.1.1.1.1 n hn).2
    split at this
    · left; exact ⟨_, rfl, by simpa using this⟩
    · right
      rw [List.any_eq_true] at this
      obtain ⟨c, hc, hc'⟩ := this
      exact ⟨_, rfl, c, hc, by simpa using hc'⟩
    · cases this
  · intro a ha n hn
    have := ((h a ha).1.1.1.1.1.1 n hn).1
    simpa using this
  · intro a ha
    have := (h a ha).1.1.1.1.1.2
    constructor
    · intro hd
      rw [decide_eq_true hd] at this
      simpa using this.symm
    · intro hd
      have : decide (a.dest = none) = true := by rw [this]; simpa using hd
      simpa using this
  · intro a ha
    have := (h a ha).1.1.1.1.2
    simpa using this
  · intro a ha v₀ hv
    have := (h a ha).1.1.1.2
    rw [hv] at this
    cases v₀ with
    | str s =>
      simp only [decide_eq_true_eq] at this
      exact ⟨.str s, by rw [Default, this]; rfl⟩
    | none => exact ⟨_, rfl⟩
    | bool b => exact ⟨_, rfl⟩
    | int n => exact ⟨_, rfl⟩
    | list l => exact ⟨_, rfl⟩
  · intro a ha hact
    have := ((h a ha).1.1.2).resolve_left (by simp [hact])
    split at this
    · left; assumption
    · right; exact ⟨_, by assumption⟩
    · cases this
  · intro a ha hn
    have := ((h a ha).1.2).resolve_left (by simp [hn])
    refine ⟨this.1, ?_⟩
    have := this.2
    split at this
    · left; assumption
    · right; left; assumption
    · right; right; exact ⟨_, by assumption⟩
    · cases this
  · intro a ha
    have := (h a ha).2
    rw [this]
    simp

theorem tools_buildable : tools.all (fun p => buildable p && decide (Definite p)) = true := by
  decide +kernel

end Verif.Argparse
