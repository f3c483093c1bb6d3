import Verif.Lemmas.ArgMore

/-! Whole command lines. -/
set_option linter.unusedSectionVars false
namespace Verif.Argparse
open Verif Verif.Spec.CommandLine

theorem loop_nil {p : Parser} {fuel : Nat} (hf : 0 < fuel) (st : St) (ex : List Text) : loop p fuel [] [] st ex = .ok (st, [], ex) := by
  obtain ⟨f, rfl⟩ : ∃ f, fuel = f + 1 := ⟨fuel - 1, by omega⟩
  have := loop_extra_last (p := p) (more := []) st (ex := ex) (fuel := f)
  rw [List.append_nil] at this
  exact this

theorem given_nil {p : Parser} (hp : WF p) {groups : List (Arg × List Text)} (h : Given p [] groups) : groups = [] := by
  cases groups with
  | nil => rfl
  | cons g gs =>
    exfalso
    obtain ⟨h1, h2, h3⟩ := h
    have hg : g.1 ∈ p ∧ g.1.names = [] := by
      have : g.1 ∈ p.filter (fun a => a.names = []) := by rw [← h1]; simp
      simpa using this
    have hf := h3 g List.mem_cons_self
    have hnil : g.2 = [] := by
      rw [List.map_cons, List.flatten_cons, List.append_eq_nil_iff] at h2
      exact h2.1
    rw [hnil] at hf
    obtain ⟨-, h | h | ⟨n, h⟩⟩ := hp.positional g.1 hg.1 hg.2 <;> rw [h] at hf <;> simp [Fits] at hf

theorem tokens_flatten {p : Parser} {os : List Opt} {tss : List (List Tok)} (h : List.Forall₂ (Tokens p) os tss) (T : List Tok) :
    tss.flatten ++ T = T ∧ os = [] ∨ ((tss.flatten ++ T).map Tok.kind).head? = some .O ∧ os ≠ [] := by
  cases h with
  | nil => exact .inl ⟨rfl, rfl⟩
  | cons h1 h2 => right; rw [List.flatten_cons, List.append_assoc, tokens_head h1]; simp

/-- Options and files. -/
theorem line_start {p : Parser} (hp : WF p) (hdef : Definite p) {before : List Opt} {tss : List (List Tok)}
    (hb : List.Forall₂ (Tokens p) before tss) {files : List Text} {groups : List (Arg × List Text)} (hg : Given p files groups)
    (ht : files ≠ [] → ∀ o, before.getLast? = some o → o.Tight) {T : List Tok} (hT : T = [] ∨ (T.map Tok.kind).head? = some .O)
    (st : St) {ex : List Text} {fuel : Nat} (hf : (tss.flatten ++ (files.map Tok.arg ++ T)).length < fuel) :
    ∃ fuel', T.length < fuel' ∧ loop p fuel (tss.flatten ++ (files.map Tok.arg ++ T)) (positionals p) st ex =
      match takeAll (before.flatMap Opt.calls ++ groups) st with
      | .error x => .error x
      | .ok st => loop p fuel' T [] st ex := by
  have hpos : positionals p = groups.map Prod.fst := hg.1.symm
  have hT' : (∀ o, before.getLast? = some o → o.Tight) ∨ ((files.map Tok.arg ++ T).map Tok.kind).head? ≠ some .A := by
    by_cases hfs : files = []
    · right
      subst hfs
      rcases hT with rfl | hT
      · simp
      · rw [List.map_nil, List.nil_append, hT]; simp
    · exact .inl (ht hfs)
  obtain ⟨f1, hf1, h1⟩ := loop_options hb hT' (pos := positionals p) st (ex := ex) hf
  rw [h1, takeAll_append]
  cases takeAll (before.flatMap Opt.calls) st with
  | error x => exact ⟨T.length + 1, by omega, rfl⟩
  | ok s =>
    dsimp only
    obtain ⟨f2, rfl⟩ : ∃ f2, f1 = f2 + 1 := ⟨f1 - 1, by omega⟩
    have hn : ∀ g ∈ groups, g.1.names = [] := by
      intro g hgm
      have : g.1 ∈ p.filter (fun a => a.names = []) := by rw [← hg.1]; exact List.mem_map_of_mem hgm
      simpa using (List.mem_filter.mp this).2
    have hdef' : ((groups.map Prod.fst).filter fun a => ¬ Fixed a.nargs).length ≤ 1 := by rw [hg.1]; exact hdef
    by_cases hfs : files = []
    · subst hfs
      have := given_nil hp hg
      subst this
      rw [hpos]
      exact ⟨f2 + 1, by simpa using hf1, rfl⟩
    · have hfl := hg.2.1
      rcases hT with rfl | hT
      · rw [hpos, List.append_nil, ← hfl, loop_last hn hg.2.2 hdef' s]
        refine ⟨1, by simp, ?_⟩
        cases takeAll groups s with
        | error x => rfl
        | ok s2 => dsimp only; rw [loop_nil (by omega)]
      · rw [hpos, ← hfl, loop_files hn hg.2.2 hdef' hT (by rw [hfl]; exact hfs) s]
        refine ⟨f2, ?_, rfl⟩
        have : 0 < files.length := List.length_pos_of_ne_nil hfs
        simp only [List.length_append, List.length_map] at hf1
        omega

/-- Options after all files. -/
theorem line_end {p : Parser} {after : List Opt} {tss : List (List Tok)} (ha : List.Forall₂ (Tokens p) after tss) (st : St)
    {ex : List Text} {fuel : Nat} (hf : tss.flatten.length < fuel) :
    loop p fuel tss.flatten [] st ex = match takeAll (after.flatMap Opt.calls) st with
      | .error x => .error x
      | .ok st => .ok (st, [], ex) := by
  obtain ⟨f, h1, h2⟩ := loop_options ha (T := []) (.inr (by simp)) (pos := []) st (ex := ex) (fuel := fuel) (by simpa using hf)
  rw [List.append_nil] at h2
  rw [h2]
  cases takeAll (after.flatMap Opt.calls) st with
  | error x => rfl
  | ok s => exact loop_nil (by omega) s ex

/-- The end of the parse. -/
theorem parse_end {p : Parser} (hp : WF p) {args : List Text} {ts : List Tok} (hc : classify p args = .ok ts)
    {calls : List (Arg × List Text)} (hmem : ∀ c ∈ calls, c.1 ∈ p) (hv : Valued calls)
    (hact : ∀ c ∈ calls, c.1.act ≠ .help ∧ c.1.act ≠ .version) (hreq : ∀ a ∈ p, a.names = [] → ∃ c ∈ calls, c.1 = a) {ex : List Text}
    (hl : ∀ st, loop p (ts.length + 1) ts (positionals p) st [] = match takeAll calls st with
      | .error x => .error x
      | .ok st => .ok (st, [], ex)) :
    ∃ ns, Outcome p calls ns ∧ parseArgs p args = if ex ≠ [] then .error (.unrecognized ex) else .ok ns := by
  obtain ⟨ns₀, hns⟩ := defaults_ok hp.converts []
  have ho := outcome_start hp hns
  obtain ⟨st, hst⟩ := takeAll_ok hp (st := ⟨ns₀, []⟩) ho hmem hv hact
  have hout := (outcome_all hp (st := ⟨ns₀, []⟩) ho hmem hst).1
  rw [List.nil_append] at hout
  refine ⟨st.ns, hout, ?_⟩
  unfold parseArgs parseKnownArgs
  rw [hns]
  dsimp only
  rw [hc]
  dsimp only
  rw [hl, hst]
  dsimp only
  have hany : p.find? (fun a => a.required && !st.seen.contains a) = none := by
    rw [List.find?_eq_none]
    intro a ha
    by_cases hr : a.required = true
    · obtain ⟨c, hc, rfl⟩ := hreq a ha ((hp.required a ha).mp hr)
      have := takeAll_seen hst c.1 (.inr ⟨c, hc, rfl⟩)
      simp [this]
    · simp [hr]
  rw [if_neg (by simp), hany]

theorem given_mem {p : Parser} {files : List Text} {groups : List (Arg × List Text)} (hg : Given p files groups) :
    (∀ c ∈ groups, c.1 ∈ p ∧ c.1.names = []) ∧ ∀ a ∈ p, a.names = [] → ∃ c ∈ groups, c.1 = a := by
  constructor
  · intro c hc
    have : c.1 ∈ p.filter (fun a => a.names = []) := by rw [← hg.1]; exact List.mem_map_of_mem hc
    simpa using List.mem_filter.mp this
  · intro a ha hn
    have : a ∈ p.filter (fun a => a.names = []) := List.mem_filter.mpr ⟨ha, by simpa using hn⟩
    rw [← hg.1, List.mem_map] at this
    obtain ⟨c, hc, rfl⟩ := this
    exact ⟨c, hc, rfl⟩

theorem writes_mem {p : Parser} {w : Text} {vs : List Text} {calls : List (Arg × List Text)} (h : Writes p w vs calls) :
    ∀ c ∈ calls, c.1 ∈ p := by
  induction h with
  | name a n w vs h1 => simpa using h1
  | equals a n w v h1 => simpa using h1
  | joined a c v h1 => simpa using h1
  | cluster a c e vs calls h1 h2 h3 h4 h5 h6 ih =>
    intro x hx
    rcases List.mem_cons.mp hx with rfl | hx
    · exact h1
    · exact ih x hx

theorem goods_mem {p : Parser} {os : List Opt} (h : ∀ o ∈ os, o.Good p) :
    ∀ c ∈ os.flatMap Opt.calls, c.1 ∈ p ∧ c.1.act ≠ .help ∧ c.1.act ≠ .version := by
  intro c hc
  obtain ⟨o, ho, hc⟩ := List.mem_flatMap.mp hc
  exact ⟨writes_mem (h o ho).writes c hc, (h o ho).acts c hc⟩

theorem given_act {p : Parser} (hp : WF p) {files : List Text} {groups : List (Arg × List Text)} (hg : Given p files groups) :
    ∀ c ∈ groups, c.1 ∈ p ∧ c.1.act ≠ .help ∧ c.1.act ≠ .version := by
  intro c hc
  obtain ⟨h1, h2⟩ := (given_mem hg).1 c hc
  have := (hp.positional c.1 h1 h2).1
  exact ⟨h1, by rw [this]; simp⟩

/-- The strings of options and files. -/
theorem line_classify {p : Parser} (hp : WF p) {before : List Opt} (hb : ∀ o ∈ before, o.Good p) {tss : List (List Tok)}
    (h2 : List.Forall₂ (fun w t => parseOptional p w = .ok t ∧ w ≠ dashes) (before.flatMap Opt.words) tss.flatten)
    {files : List Text} (hfs : ∀ f ∈ files, Value p f) (r : List Text) :
    classify p (before.flatMap Opt.words ++ (files ++ r)) = match classify p r with
      | .error e => .error e
      | .ok us => .ok (tss.flatten ++ (files.map .arg ++ us)) := by
  rw [classify_append h2, classify_append (values_classified hp hfs)]
  cases classify p r <;> rfl

theorem classify_all {p : Parser} {ws : List Text} {ts : List Tok}
    (h : List.Forall₂ (fun w t => parseOptional p w = .ok t ∧ w ≠ dashes) ws ts) : classify p ws = .ok ts := by
  have := classify_append h []
  rw [List.append_nil] at this
  rw [this]
  simp [classify]

end Verif.Argparse
