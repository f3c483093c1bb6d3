import Verif.Model.ArgExit
import Verif.Lemmas.ArgWhyLine
import Verif.Lemmas.ArgHelpLines

/-! Lemmas for C86: messages. -/
namespace Verif.ArgHelp
open Verif Verif.Argparse Verif.Spec.CommandLine Verif.Spec.UsageHelp Verif.Spec.CommandErrors

theorem called {s : Shown} : Called s (actionName s) := by
  unfold Called actionName
  refine ⟨fun h => ?_, fun h m hm => ?_, fun h hm d hd => ?_⟩
  · rw [if_pos h]
    have : "/".toList = ['/'] := by decide
    rw [this]
  · rw [if_neg (by simpa using h), hm]
  · rw [if_neg (by simpa using h), hm]
    dsimp only
    unfold Shown.dest
    rw [hd]
    rfl

theorem about {l : List Shown} {a : Arg} (h : a ∈ l.map (·.arg)) (e : Text) : About l a e (argumentError l a e) := by
  obtain ⟨s, hs, ha⟩ := List.mem_map.1 h
  unfold argumentError named
  rcases hf : l.find? fun s => decide (s.arg = a) with _ | s'
  · have := List.find?_eq_none.1 hf s hs
    simp [ha] at this
  · have h1 := List.mem_of_find?_eq_some hf
    have h2 := List.find?_some hf
    exact ⟨s', h1, by simpa using h2, _, called, by rw [hf]; rfl⟩

theorem amount {n : Nargs} (h : 1 ≤ least n) : ∃ k, Amount n k ∧ expectedText n = "expected ".toList ++ k := by
  cases n with
  | one => exact ⟨_, .one, by unfold expectedText; decide +kernel⟩
  | opt => exact absurd h (by decide)
  | star => exact absurd h (by decide)
  | plus => exact ⟨_, .more, by unfold expectedText; decide +kernel⟩
  | num n =>
    refine ⟨(toString n).toList ++ " argument(s)".toList, .some n, ?_⟩
    have h' : ¬ (n : Int) < 0 := by omega
    have e : StatsTable.showInt (n : Int) = (toString n).toList := by
      unfold StatsTable.showInt
      rw [if_neg h']
      simp [toString, Nat.repr]
    unfold expectedText
    dsimp only
    rw [e, List.append_assoc]

theorem why_says (repr : Text → Text) {l : List Shown} {args : List Text} {x : Stop} (h : Why (l.map (·.arg)) args x)
    (h1 : x ≠ .help) (h2 : x ≠ .version) : Says repr l x (message repr l x) := by
  cases x with
  | help => exact absurd rfl h1
  | version => exact absurd rfl h2
  | ambiguous s ns => rfl
  | ignored a e =>
    have ha : a ∈ l.map (·.arg) := by
      obtain ⟨-, w, -, ⟨v, hv, -⟩ | ⟨d, r, hj, -⟩⟩ := h
      · exact hv.1
      · exact hj.1
    have := about ha ("ignored explicit argument ".toList ++ (e.map repr).getD "None".toList)
    cases e <;> exact this
  | expected a =>
    have key : a ∈ l.map (·.arg) ∧ 1 ≤ least a.nargs := by
      obtain ⟨h2, w, -, v, hv | hj⟩ | ⟨x, w, y, -, hw, h⟩ := h
      · exact ⟨hv.1, by omega⟩
      · exact ⟨hj.1, by omega⟩
      · refine ⟨hw.2.1, ?_⟩
        rcases h with h | ⟨s, hs, -⟩
        · omega
        · rcases hn : least a.nargs with _ | n
          · rw [hn] at hs; simp at hs
          · omega
    obtain ⟨k, hk, e⟩ := amount key.2
    refine ⟨k, hk, ?_⟩
    rw [← e]
    exact about key.1 _
  | notCallable a => exact about h.2.choose_spec.1 _
  | invalid a s => exact about h.2.2.choose_spec.1.1 _
  | tooFew => rfl
  | required a => exact h.elim
  | unrecognized ws => rfl
  | crash => exact h.elim
  | fuel => exact h.elim

theorem versionText_ok {o : Outside} (ho : Lawful o) (raw : Bool) {columns : Int} (hw : 0 < columns - 2) (version : Option Text) :
    ∃ t, versionText o raw columns version = .ok t ∧ TextLines raw (columns - 2) version (solid t) := by
  obtain ⟨ts, ls, h1, h2, h3, h4⟩ := formatTexts_ok ho raw hw version
  refine ⟨finish ts, ?_, ?_⟩
  · unfold versionText
    simp only [bind, Except.bind]
    rw [h1]
  · rw [solid_finish h2, h3]
    exact h4

end Verif.ArgHelp
