import Verif.Lemmas.ArgTools

/-! C83: the command lines of the tools. -/
namespace Verif.Props.CommandLine
open Verif Verif.Argparse Verif.Spec.CommandLine

private def t (s : String) : Text := s.toList

private theorem inls {parts : List (Part ⊕ Text)} (h : parts.flatMap extraOf = []) :
    ∃ qs : List Part, parts = qs.map .inl := by
  induction parts with
  | nil => exact ⟨[], rfl⟩
  | cons q parts ih =>
    rw [List.flatMap_cons, List.append_eq_nil_iff] at h
    obtain ⟨qs, rfl⟩ := ih h.2
    cases q with
    | inl q => exact ⟨q :: qs, rfl⟩
    | inr w => simp [extraOf] at h

private theorem inl_maps (qs : List Part) : (qs.map Sum.inl).flatMap wordsOf = qs.flatMap Part.words ∧
    (qs.map Sum.inl).flatMap positionalOf = qs.flatMap Part.positional ∧
    (qs.map Sum.inl).flatMap callsOf = qs.flatMap Part.calls := by
  simp only [List.flatMap_map]
  exact ⟨rfl, rfl, rfl⟩

private theorem parse_ok {p : Parser} {args : List Text} {ns : AD String Val} (h : parseArgs p args = .ok ns) :
    ∃ ns₀ ts st, defaults p [] = .ok ns₀ ∧ classify p args = .ok ts ∧
      loop p (ts.length + 1) ts (positionals p) ⟨ns₀, []⟩ [] = .ok (st, [], []) ∧ st.ns = ns := by
  unfold parseArgs parseKnownArgs at h
  cases h1 : defaults p [] with
  | error e => rw [h1] at h; cases h
  | ok ns₀ =>
    rw [h1] at h
    dsimp only at h
    cases h2 : classify p args with
    | error e => rw [h2] at h; cases h
    | ok ts =>
      rw [h2] at h
      dsimp only at h
      cases h3 : loop p (ts.length + 1) ts (positionals p) ⟨ns₀, []⟩ [] with
      | error e => rw [h3] at h; cases h
      | ok r =>
        obtain ⟨st, pos, ex⟩ := r
        rw [h3] at h
        dsimp only at h
        by_cases hpos : pos = []
        · rw [if_neg (by simpa using hpos)] at h
          cases hreq : p.find? fun a => a.required && !st.seen.contains a with
          | some a => rw [hreq] at h; cases h
          | none =>
            rw [hreq] at h
            dsimp only at h
            by_cases hex : ex = []
            · rw [if_neg (by simpa using hex)] at h
              cases h
              subst hpos hex
              exact ⟨ns₀, ts, st, rfl, rfl, h3, rfl⟩
            · rw [if_pos hex] at h; cases h
        · rw [if_pos hpos] at h; cases h

private theorem positionals_mem {p : Parser} : ∀ a ∈ positionals p, a ∈ p := fun _ ha => (List.mem_filter.mp ha).1

/-- **C83**: when a parse succeeds, the command line falls into parts, each of which is read as an option with its values
or as a positional argument, and no string is lost: all positional arguments have their strings, in order, and every
attribute of the namespace is as the parts say. -/
theorem conserved {p : Parser} (hp : WF p) {args : List Text} {ns : AD String Val} (h : parseArgs p args = .ok ns) :
    ∃ parts : List Part, parts.flatMap Part.words = args ∧ parts.flatMap Part.positional = p.filter (fun a => a.names = []) ∧
      (∀ q ∈ parts, q.Sound p) ∧ Outcome p (parts.flatMap Part.calls) ns := by
  obtain ⟨ns₀, ts, st, h1, h2, h3, rfl⟩ := parse_ok h
  obtain ⟨hw, hd⟩ := classify_sound h2
  obtain ⟨parts, q1, q2, q3, q4, q5⟩ := loop_sound hp _ hw hd (classify_layout h2) positionals_mem h3
  rw [List.nil_append] at q3
  obtain ⟨qs, rfl⟩ := inls q3.symm
  obtain ⟨i1, i2, i3⟩ := inl_maps qs
  rw [i1] at q1
  rw [i2, List.append_nil] at q2
  rw [i3] at q4
  have hs : ∀ q ∈ qs, q.Sound p := fun q hq => q5 (.inl q) (List.mem_map_of_mem hq)
  refine ⟨qs, q1, q2, hs, ?_⟩
  have := (outcome_all hp (st := ⟨ns₀, []⟩) (outcome_start hp h1) (fun c hc => by
    obtain ⟨q, hq, hcq⟩ := List.mem_flatMap.mp hc
    exact sound_mem (hs q hq) c hcq) q4).1
  simpa using this

/-- **C83**: options, files and options again are understood: with the files given to the positional arguments, all
attributes are as the options say. An option before the files must take a fixed number of values. -/
theorem complete {p : Parser} (hp : WF p) (hdef : Definite p) {before after : List Opt} (hb : ∀ o ∈ before, o.Good p)
    (ha : ∀ o ∈ after, o.Good p) {files : List Text} (hfs : ∀ f ∈ files, Value p f) {groups : List (Arg × List Text)}
    (hg : Given p files groups) (ht : files ≠ [] → ∀ o, before.getLast? = some o → o.Tight)
    (hv : Valued (before.flatMap Opt.calls ++ groups ++ after.flatMap Opt.calls)) :
    ∃ ns, parseArgs p (before.flatMap Opt.words ++ files ++ after.flatMap Opt.words) = .ok ns ∧
      Outcome p (before.flatMap Opt.calls ++ groups ++ after.flatMap Opt.calls) ns := by
  obtain ⟨tb, b1, b2⟩ := opts_classified hp hb
  obtain ⟨ta, a1, a2⟩ := opts_classified hp ha
  have hc := line_classify hp hb b2 hfs (after.flatMap Opt.words)
  rw [classify_all a2] at hc
  dsimp only at hc
  obtain ⟨ns, hout, hres⟩ := parse_end hp (args := before.flatMap Opt.words ++ (files ++ after.flatMap Opt.words)) hc
    (calls := before.flatMap Opt.calls ++ groups ++ after.flatMap Opt.calls) (ex := []) (by
      intro c hc
      rcases List.mem_append.mp hc with hc | hc
      · rcases List.mem_append.mp hc with hc | hc
        · exact (goods_mem hb c hc).1
        · exact (given_act hp hg c hc).1
      · exact (goods_mem ha c hc).1) hv (by
      intro c hc
      rcases List.mem_append.mp hc with hc | hc
      · rcases List.mem_append.mp hc with hc | hc
        · exact (goods_mem hb c hc).2
        · exact (given_act hp hg c hc).2
      · exact (goods_mem ha c hc).2) (by
      intro a ha hn
      obtain ⟨c, hc, hca⟩ := (given_mem hg).2 a ha hn
      exact ⟨c, List.mem_append_left _ (List.mem_append_right _ hc), hca⟩) (by
      intro st
      have hT : ta.flatten = [] ∨ (ta.flatten.map Tok.kind).head? = some .O := by
        rcases tokens_flatten a1 [] with ⟨h, -⟩ | ⟨h, -⟩ <;> rw [List.append_nil] at h
        · exact .inl h
        · exact .inr h
      obtain ⟨f, hf, hl⟩ := line_start hp hdef b1 hg ht hT st (ex := []) (Nat.lt_succ_self _)
      rw [hl, takeAll_append (before.flatMap Opt.calls ++ groups)]
      cases takeAll (before.flatMap Opt.calls ++ groups) st with
      | error x => rfl
      | ok s => exact line_end a1 s hf)
  refine ⟨ns, ?_, hout⟩
  rw [List.append_assoc, hres, if_neg (by simp)]

/-- **C83**: after `--` all strings are files, whatever they look like, also after an option that takes any number of
values. -/
theorem complete_dashes {p : Parser} (hp : WF p) (hdef : Definite p) {before : List Opt} (hb : ∀ o ∈ before, o.Good p)
    {files : List Text} (hne : files ≠ []) {groups : List (Arg × List Text)} (hg : Given p files groups)
    (hv : Valued (before.flatMap Opt.calls ++ groups)) :
    ∃ ns, parseArgs p (before.flatMap Opt.words ++ dashes :: files) = .ok ns ∧ Outcome p (before.flatMap Opt.calls ++ groups) ns := by
  obtain ⟨tb, b1, b2⟩ := opts_classified hp hb
  have hc : classify p (before.flatMap Opt.words ++ dashes :: files) = .ok (tb.flatten ++ .dash :: files.map .arg) := by
    rw [classify_append b2, classify, if_pos (show dashes = ['-', '-'] from rfl)]
  obtain ⟨ns, hout, hres⟩ := parse_end hp hc (calls := before.flatMap Opt.calls ++ groups) (ex := []) (by
      intro c hc
      rcases List.mem_append.mp hc with hc | hc
      · exact (goods_mem hb c hc).1
      · exact (given_act hp hg c hc).1) hv (by
      intro c hc
      rcases List.mem_append.mp hc with hc | hc
      · exact (goods_mem hb c hc).2
      · exact (given_act hp hg c hc).2) (by
      intro a ha hn
      obtain ⟨c, hc, hca⟩ := (given_mem hg).2 a ha hn
      exact ⟨c, List.mem_append_right _ hc, hca⟩) (by
      intro st
      obtain ⟨f, hf, hl⟩ := loop_options b1 (T := .dash :: files.map .arg) (.inr (by simp [Tok.kind])) (pos := positionals p) st
        (ex := []) (Nat.lt_succ_self _)
      rw [hl, takeAll_append]
      cases takeAll (before.flatMap Opt.calls) st with
      | error x => rfl
      | ok s =>
        dsimp only
        obtain ⟨f, rfl⟩ : ∃ g, f = g + 1 := ⟨f - 1, by omega⟩
        cases groups with
        | nil => exact absurd hg.2.1.symm hne
        | cons g gs =>
          have hm := (given_mem hg).1
          rw [show positionals p = (g :: gs).map Prod.fst from hg.1.symm, ← hg.2.1]
          exact loop_dash (fun x hx => (hm x hx).2) (hp.positional g.1 (hm g List.mem_cons_self).1 (hm g List.mem_cons_self).2).2
            hg.2.2 (by rw [hg.1]; exact hdef) s)
  exact ⟨ns, by rw [hres, if_neg (by simp)], hout⟩

/-- **C83**: all files must stand together: those after a later option are not recognized. -/
theorem split_files {p : Parser} (hp : WF p) (hdef : Definite p) {before mid after : List Opt} (hb : ∀ o ∈ before, o.Good p)
    (hm : ∀ o ∈ mid, o.Good p) (ha : ∀ o ∈ after, o.Good p) {files more : List Text} (hfs : ∀ f ∈ files, Value p f)
    (hmore : ∀ f ∈ more, Value p f) (hne : more ≠ []) (hmid : mid ≠ []) {groups : List (Arg × List Text)}
    (hg : Given p files groups) (ht : files ≠ [] → ∀ o, before.getLast? = some o → o.Tight) (ht' : ∀ o, mid.getLast? = some o → o.Tight)
    (hv : Valued (before.flatMap Opt.calls ++ groups ++ (mid ++ after).flatMap Opt.calls)) :
    parseArgs p (before.flatMap Opt.words ++ files ++ mid.flatMap Opt.words ++ more ++ after.flatMap Opt.words) =
      .error (.unrecognized more) := by
  obtain ⟨tb, b1, b2⟩ := opts_classified hp hb
  obtain ⟨tm, m1, m2⟩ := opts_classified hp hm
  obtain ⟨ta, a1, a2⟩ := opts_classified hp ha
  have hc := line_classify hp hb b2 hfs (mid.flatMap Opt.words ++ (more ++ after.flatMap Opt.words))
  rw [line_classify hp hm m2 hmore, classify_all a2] at hc
  dsimp only at hc
  have hall : ∀ c ∈ before.flatMap Opt.calls ++ groups ++ (mid ++ after).flatMap Opt.calls,
      c.1 ∈ p ∧ c.1.act ≠ .help ∧ c.1.act ≠ .version := by
    intro c hc
    rw [List.flatMap_append] at hc
    simp only [List.mem_append] at hc
    rcases hc with (hc | hc) | hc | hc
    · exact goods_mem hb c hc
    · exact given_act hp hg c hc
    · exact goods_mem hm c hc
    · exact goods_mem ha c hc
  obtain ⟨ns, hout, hres⟩ := parse_end hp hc (calls := before.flatMap Opt.calls ++ groups ++ (mid ++ after).flatMap Opt.calls)
    (ex := more) (fun c hc => (hall c hc).1) hv (fun c hc => (hall c hc).2) (by
      intro a ha hn
      obtain ⟨c, hc, hca⟩ := (given_mem hg).2 a ha hn
      exact ⟨c, List.mem_append_left _ (List.mem_append_right _ hc), hca⟩) (by
      intro st
      have hT : ((tm.flatten ++ (more.map Tok.arg ++ ta.flatten)).map Tok.kind).head? = some .O := by
        rcases tokens_flatten m1 (more.map Tok.arg ++ ta.flatten) with ⟨-, h⟩ | ⟨h, -⟩
        · exact absurd h hmid
        · exact h
      obtain ⟨f, hf, hl⟩ := line_start hp hdef b1 hg ht (.inr hT) st (ex := []) (Nat.lt_succ_self _)
      rw [hl, takeAll_append (before.flatMap Opt.calls ++ groups)]
      cases takeAll (before.flatMap Opt.calls ++ groups) st with
      | error x => rfl
      | ok s =>
        dsimp only
        obtain ⟨f2, hf2, hl2⟩ := loop_options m1 (.inl ht') (pos := []) s (ex := []) hf
        rw [hl2, List.flatMap_append, takeAll_append]
        cases takeAll (mid.flatMap Opt.calls) s with
        | error x => rfl
        | ok s2 =>
          dsimp only
          obtain ⟨f3, rfl⟩ : ∃ g, f2 = g + 1 := ⟨f2 - 1, by omega⟩
          rcases tokens_flatten a1 [] with ⟨h, rfl⟩ | ⟨h, -⟩ <;> rw [List.append_nil] at h
          · rw [h, List.append_nil, loop_extra_last]; rfl
          · rw [loop_extra h]
            rw [List.length_append] at hf2
            exact line_end a1 s2 (by omega))
  rw [List.append_assoc, List.append_assoc, List.append_assoc, hres, if_pos hne]

/-- **C83**: options without the files that a tool needs are not enough. In particular, files directly after an option
that takes any number of values are values of that option. -/
theorem missing {p : Parser} (hp : WF p) (hpos : ∃ a ∈ p, a.names = []) {opts : List Opt} (ho : ∀ o ∈ opts, o.Good p)
    (hv : Valued (opts.flatMap Opt.calls)) : parseArgs p (opts.flatMap Opt.words) = .error .tooFew := by
  obtain ⟨tb, b1, b2⟩ := opts_classified hp ho
  have hc := classify_all b2
  obtain ⟨ns₀, hns⟩ := defaults_ok hp.converts []
  obtain ⟨st, hst⟩ := takeAll_ok hp (st := ⟨ns₀, []⟩) (outcome_start hp hns) (fun c hc => (goods_mem ho c hc).1) hv
    (fun c hc => (goods_mem ho c hc).2)
  obtain ⟨f, hf, hl⟩ := loop_options b1 (T := []) (.inr (by simp)) (pos := positionals p) ⟨ns₀, []⟩ (ex := [])
    (fuel := tb.flatten.length + 1) (by simp)
  rw [List.append_nil, hst] at hl
  dsimp only at hl
  unfold parseArgs parseKnownArgs
  rw [hns]
  dsimp only
  rw [hc]
  dsimp only
  rw [hl]
  obtain ⟨f, rfl⟩ : ∃ g, f = g + 1 := ⟨f - 1, by omega⟩
  have hne : positionals p ≠ [] := by
    obtain ⟨a, ha, hn⟩ := hpos
    exact List.ne_nil_of_mem (List.mem_filter.mpr ⟨ha, by simpa using hn⟩)
  have hcons : consumePositionals [] (positionals p) st = .ok (st, positionals p, 0) := by
    have hm : matchPartial (positionals p) [] = [] := by
      have hg := matchPartial_sound (positionals p) []
      obtain ⟨i, hi, hg⟩ := hg
      cases i with
      | zero =>
        rw [List.take_zero] at hg
        have := hg.length
        rwa [List.length_nil, List.length_eq_zero_iff] at this
      | succ i =>
        exfalso
        obtain ⟨a, l, hal⟩ := List.exists_cons_of_ne_nil hne
        rw [hal, List.take_succ_cons] at hg
        generalize matchPartial (a :: l) [] = ns at hg
        cases hg with
        | cons _ _ _ n ns h1 h2 =>
          have hfit := pattern_count h1
          have ham : a ∈ positionals p := by rw [hal]; exact List.mem_cons_self
          rw [List.take_nil] at hfit
          obtain ⟨-, h | h | ⟨m, h⟩⟩ := hp.positional a (positionals_mem a ham) (by simpa using (List.mem_filter.mp ham).2) <;>
            rw [h] at hfit <;> simp [Fits, countA] at hfit
    unfold consumePositionals
    dsimp only
    rw [List.map_nil, hm]
    simp [slices, takeAll]
  rw [loop, if_pos (by rfl), hcons]
  dsimp only
  rw [if_pos hne]

/-- **C83**: `-h`, `--help`, also joined with other short options, asks for the help, whatever is missing. -/
theorem help_version {p : Parser} (hp : WF p) {before : List Opt} (hb : ∀ o ∈ before, o.Good p) {w : Text} {a : Arg}
    {cs : List (Arg × List Text)} (hw : Writes p w [] (cs ++ [(a, [])])) (hcs : ∀ c ∈ cs, c.1.act ≠ .help ∧ c.1.act ≠ .version)
    (hfix : ∀ c ∈ cs, Fixed c.1.nargs) (hn : a.nargs = .num 0) (ha : a.act = .help ∨ a.act = .version)
    (hv : Valued (before.flatMap Opt.calls ++ cs)) {rest : List Text} (hrest : ∀ f ∈ rest, Value p f) :
    parseArgs p (before.flatMap Opt.words ++ w :: rest) = .error (if a.act = .help then .help else .version) := by
  obtain ⟨tb, b1, b2⟩ := opts_classified hp hb
  obtain ⟨x, n, e, k1, k2, k3⟩ := writes_tok hp hw
  have hc : classify p (before.flatMap Opt.words ++ w :: rest) = .ok (tb.flatten ++ .opt x n e :: rest.map .arg) := by
    rw [classify_append b2, classify_all (List.Forall₂.cons ⟨k1, k2⟩ (values_classified hp hrest))]
  obtain ⟨ns₀, hns⟩ := defaults_ok hp.converts []
  have hmem : ∀ c ∈ before.flatMap Opt.calls ++ cs, c.1 ∈ p ∧ c.1.act ≠ .help ∧ c.1.act ≠ .version := by
    intro c hc
    rcases List.mem_append.mp hc with hc | hc
    · exact goods_mem hb c hc
    · exact ⟨writes_mem hw c (List.mem_append_left _ hc), hcs c hc⟩
  obtain ⟨st, hst⟩ := takeAll_ok hp (st := ⟨ns₀, []⟩) (outcome_start hp hns) (fun c hc => (hmem c hc).1) hv (fun c hc => (hmem c hc).2)
  rw [takeAll_append] at hst
  obtain ⟨f, hf, hl⟩ := loop_options b1 (T := .opt x n e :: rest.map .arg) (.inr (by simp [Tok.kind])) (pos := positionals p) ⟨ns₀, []⟩
    (ex := []) (Nat.lt_succ_self _)
  have hread := k3 (rest.map .arg) (.inl (by
    intro c hc
    rcases List.mem_append.mp hc with hc | hc
    · exact hfix c hc
    · rw [List.mem_singleton] at hc; subst hc; rw [hn]; trivial))
  rw [List.map_nil, List.nil_append] at hread
  obtain ⟨f, rfl⟩ : ∃ g, f = g + 1 := ⟨f - 1, by omega⟩
  unfold parseArgs parseKnownArgs
  rw [hns]
  dsimp only
  rw [hc]
  dsimp only
  rw [hl]
  cases hbt : takeAll (before.flatMap Opt.calls) ⟨ns₀, []⟩ with
  | error y => rw [hbt] at hst; cases hst
  | ok s =>
    rw [hbt] at hst
    dsimp only at hst ⊢
    rw [loop_option hread, takeAll_append, hst]
    dsimp only
    have hgv : getValues a [] = .ok (some (.list [])) := by
      unfold getValues
      simp [hn, getList]
    have : takeAll [(a, [])] st = .error (if a.act = .help then .help else .version) := by
      rw [takeAll, takeAction]
      dsimp only
      rw [hgv]
      dsimp only
      unfold call
      rcases ha with ha | ha <;> rw [ha] <;> simp
    rw [this]

/-- **C83**: a string that looks like an option but names none is never accepted. -/
theorem unknown {p : Parser} (hp : WF p) {l : List Text} {w : Text} {r : List Text} (hl : dashes ∉ l) (hw : OptionLike w)
    {ns : AD String Val} (h : parseArgs p (l ++ w :: r) = .ok ns) : Names p w := by
  obtain ⟨ns₀, ts, st, h1, h2, h3, rfl⟩ := parse_ok h
  obtain ⟨hden, hd⟩ := classify_sound h2
  obtain ⟨hw1, hw2, hw3, hw4⟩ := hw
  obtain ⟨tok, k1, k2⟩ := classify_cons hl (by rintro rfl; obtain ⟨c, hc, hc'⟩ := hw2; simp [dashes] at hc; exact hc' hc) h2
  have hnot : ∀ u, tok ≠ .unknown u := by
    rintro u rfl
    exact loop_unknown hp _ hden hd positionals_mem h3 (.inr ⟨u, k2⟩) rfl
  have hk := (parseOptional_sound k1).1
  cases tok with
  | unknown u => exact absurd rfl (hnot u)
  | dash => exact absurd rfl (parseOptional_sound k1).2
  | opt a n e =>
    obtain ⟨-, d1, d2, d3⟩ := hk
    refine ⟨a, d1, n, d2, ?_⟩
    rcases d3 with ⟨-, d⟩ | ⟨u, v, -, d⟩ | ⟨c, v, -, -, -, d, d'⟩
    · exact .inl d
    · exact .inr (.inl ⟨u, v, d⟩)
    · exact .inr (.inr ⟨c, v, d, d'⟩)
  | arg s =>
    exfalso
    have hneg : negativeNumber w = false := by
      rcases w with _ | ⟨x, _ | ⟨c, r⟩⟩
      · simp at hw1
      · simp only [List.head?_cons, Option.some.injEq] at hw1
        subst hw1
        rfl
      · simp only [List.head?_cons, Option.some.injEq] at hw1
        subst hw1
        have hc := hw4 c (.inl rfl)
        simp only [negativeNumber, hc, Bool.false_or]
        rw [Bool.and_eq_false_iff]
        right
        rw [Bool.and_eq_false_iff, decide_eq_false_iff_not, not_not]
        cases r with
        | nil => left; simp
        | cons d r =>
          have hd := hw4 d (.inr rfl)
          by_cases hl : (d :: r).getLast? = some '\n'
          · rw [if_pos hl]
            cases r with
            | nil => left; rfl
            | cons y r => right; simp [List.dropLast, hd]
          · rw [if_neg hl]
            right
            simp [hd]
    unfold parseOptional at k1
    rw [if_neg (by rintro rfl; simp at hw1), if_neg (by rw [hw1]; simp), if_neg (notAll hw2)] at k1
    cases hlk : lookup p w with
    | some a => rw [hlk] at k1; cases k1
    | none =>
      rw [hlk] at k1
      dsimp only at k1
      split at k1
      · cases k1
      · cases k1
      · rw [hneg, Bool.false_and, if_neg (by simp), if_neg hw3] at k1; cases k1

/-- **C83**: the start of several long names is never accepted, unless it is a name itself. -/
theorem ambiguous {p : Parser} {l : List Text} {w : Text} {r : List Text} (hl : dashes ∉ l) (hw : ['-', '-'] <+: w)
    (hw' : ∃ c ∈ w, c ≠ '-') (heq : '=' ∉ w) {a b : Arg} (ha : a ∈ p) (hb : b ∈ p) {n m : Text} (hn : n ∈ a.names) (hm : m ∈ b.names)
    (hne : n ≠ m) (hwn : w <+: n) (hwm : w <+: m) (hno : ∀ c ∈ p, w ∉ c.names) (ns : AD String Val) :
    parseArgs p (l ++ w :: r) ≠ .ok ns := by
  intro h
  obtain ⟨ns₀, ts, st, h1, h2, h3, rfl⟩ := parse_ok h
  obtain ⟨tok, k1, k2⟩ := classify_cons hl (by rintro rfl; obtain ⟨c, hc, hc'⟩ := hw'; simp [dashes] at hc; exact hc' hc) h2
  obtain ⟨w', rfl⟩ := hw
  have hlk : lookup p (['-', '-'] ++ w') = none := by
    cases hx : lookup p (['-', '-'] ++ w') with
    | none => rfl
    | some c => obtain ⟨x1, x2⟩ := lookup_some hx; exact absurd x2 (hno c x1)
  unfold parseOptional at k1
  rw [if_neg (by simp), if_neg (by simp), if_neg (notAll hw'), hlk] at k1
  dsimp only at k1
  have htup : ∃ x y z, optionTuples p (['-', '-'] ++ w') = x :: y :: z := by
    unfold optionTuples
    dsimp only [List.cons_append, List.nil_append]
    rw [if_neg (show ¬ '=' ∈ ('-' :: '-' :: w') from heq), if_neg (show ¬ '=' ∈ ('-' :: '-' :: w') from heq)]
    have memn : ∀ c n, c ∈ p → n ∈ c.names → ['-', '-'] ++ w' <+: n → (c, n, (none : Option Text)) ∈
        (optionStrings p).filterMap fun o => if ('-' :: '-' :: w').isPrefixOf o.1 then some (o.2, o.1, (none : Option Text)) else none := by
      intro c n hc hn hpre
      refine List.mem_filterMap.mpr ⟨(n, c), mem_optionStrings.mpr ⟨hc, hn⟩, ?_⟩
      exact if_pos (List.isPrefixOf_iff_prefix.mpr hpre)
    have h1 := memn a n ha hn hwn
    have h2 := memn b m hb hm hwm
    generalize (optionStrings p).filterMap (fun o => if ('-' :: '-' :: w').isPrefixOf o.1 then some (o.2, o.1, (none : Option Text)) else none) = L at h1 h2
    rcases L with _ | ⟨x, _ | ⟨y, z⟩⟩
    · simp at h1
    · rw [List.mem_singleton] at h1 h2
      rw [← h2] at h1
      exact absurd (Prod.mk.inj (Prod.mk.inj h1).2).1 hne
    · exact ⟨x, y, z, rfl⟩
  obtain ⟨x, y, z, htup⟩ := htup
  rw [htup] at k1
  cases k1

/-- **C83**: no command line makes the parser fail in another way than with a message. -/
theorem clean {p : Parser} (hp : WF p) (args : List Text) : parseArgs p args ≠ .error .crash ∧ parseArgs p args ≠ .error .fuel := by
  have key : ∀ x, parseArgs p args = .error x → x.Clean := by
    intro x h
    obtain ⟨ns₀, hns⟩ := defaults_ok hp.converts []
    unfold parseArgs parseKnownArgs at h
    rw [hns] at h
    dsimp only at h
    cases h2 : classify p args with
    | error e => rw [h2] at h; cases h; exact classify_clean h2
    | ok ts =>
      rw [h2] at h
      dsimp only at h
      obtain ⟨hden, hd⟩ := classify_sound h2
      cases h3 : loop p (ts.length + 1) ts (positionals p) ⟨ns₀, []⟩ [] with
      | error e =>
        rw [h3] at h; cases h
        exact loop_clean hp _ hden hd (Nat.lt_succ_self _) positionals_mem (st := ⟨ns₀, []⟩) (outcome_start hp hns) h3
      | ok r =>
        obtain ⟨st, pos, ex⟩ := r
        rw [h3] at h
        dsimp only at h
        split at h
        · rename_i hs
          split at hs
          · cases hs; cases h; simp [Stop.Clean]
          · split at hs
            · cases hs; cases h; simp [Stop.Clean]
            · cases hs
        · split at h
          · cases h; simp [Stop.Clean]
          · cases h
  exact ⟨fun h => (key _ h).1 rfl, fun h => (key _ h).2 rfl⟩

/-! ### The tools -/

/-- **C83**: the parsers of all tools can be built, and at most one of their positional arguments varies in length, so
that all of the above holds for them. -/
theorem tools_wf : ∀ p ∈ tools, WF p ∧ Definite p := by
  intro p hp
  have := List.all_eq_true.mp tools_buildable p hp
  rw [Bool.and_eq_true, decide_eq_true_eq] at this
  exact ⟨buildable_wf this.1, this.2⟩

private theorem attributes_known : attributes.all (fun e => decide (e.1 ∈ tools) && e.2.all fun x => decide (some x ∈ e.1.map Arg.dest)) = true := by
  decide +kernel

/-- **C83**: every attribute that a tool reads is there, whatever the command line. -/
theorem attributes_set : ∀ e ∈ attributes, ∀ args ns, parseArgs e.1 args = .ok ns → ∀ x ∈ e.2, x ∈ ns.keys := by
  intro e he args ns h x hx
  have := List.all_eq_true.mp attributes_known e he
  rw [Bool.and_eq_true, decide_eq_true_eq, List.all_eq_true] at this
  obtain ⟨h1, h2⟩ := this
  obtain ⟨parts, -, -, -, ho⟩ := conserved (tools_wf e.1 h1).1 h
  rw [ho.1, List.mem_filterMap]
  have := h2 x hx
  rw [decide_eq_true_eq, List.mem_map] at this
  exact this

/-- **C83**: pgc_agreement calls `run_eval` with its keywords and no others. -/
theorem agreement_keywords (args : List Text) (ns : AD String Val) (h : parseArgs pgcAgreement args = .ok ns) :
    ns.keys = ["corpus_fns", "annotators", "pickle_fn", "words_only"] := by
  obtain ⟨parts, -, -, -, ho⟩ := conserved (tools_wf pgcAgreement (by simp [tools])).1 h
  rw [ho.1]
  decide +kernel

private theorem list_value {a : Arg} (hn : a.nargs = .plus) (ht : a.ty = .identity) {l : List Text} {v : Val} (h : ValueOf a l v) :
    v = .list ((l.filter (· ≠ dashes)).map .str) := by
  unfold ValueOf at h
  rw [hn] at h
  clear hn
  have key : ∀ m : List Text, (∃ vs, v = .list vs ∧ List.Forall₂ (Means a.ty) m vs) → v = .list (m.map .str) := by
    rintro m ⟨vs, rfl, hf⟩
    clear h
    congr 1
    rw [ht] at hf
    induction hf with
    | nil => rfl
    | cons h1 h2 ih => rw [List.map_cons, ← ih]; congr 1
  generalize l.filter (· ≠ dashes) = m at h ⊢
  exact key m h

/-- **C83**: the files of a tool that takes any number of them are a list of strings, also when there is one. (So
ptc_n_to_id, which takes the list as a file name, fails for every command line.) -/
theorem file_list {p : Parser} (hp : WF p) {a : Arg} (ha : a ∈ p) (hn : a.names = []) (hk : a.nargs = .plus) (ht : a.ty = .identity)
    {d : String} (hd : a.dest = some d) {args : List Text} {ns : AD String Val} (h : parseArgs p args = .ok ns) :
    ∃ l : List Text, ns.get? d = some (.list (l.map .str)) ∧ ∀ s ∈ l, s ∈ args := by
  obtain ⟨parts, h1, h2, h3, ho⟩ := conserved hp h
  have hdef : ∃ v₀, a.default = some v₀ := by
    cases hx : a.default with
    | none => rw [(hp.default a ha).mpr hx] at hd; cases hd
    | some v => exact ⟨v, rfl⟩
  obtain ⟨v₀, hv₀⟩ := hdef
  have := ho.2 a ha d hd v₀ hv₀
  rw [(hp.positional a ha hn).1] at this
  dsimp only at this
  have hin : a ∈ parts.flatMap Part.positional := by rw [h2]; exact List.mem_filter.mpr ⟨ha, by simpa using hn⟩
  obtain ⟨q, hq, haq⟩ := List.mem_flatMap.mp hin
  have hcall : ∃ ws, (a, ws) ∈ parts.flatMap Part.calls := by
    cases q with
    | options w vs cs => simp [Part.positional] at haq
    | files b ws =>
      simp only [Part.positional, List.mem_singleton] at haq
      subst haq
      exact ⟨ws, List.mem_flatMap.mpr ⟨_, hq, by simp [Part.calls]⟩⟩
  obtain ⟨ws, hws⟩ := hcall
  cases hlast : ((parts.flatMap Part.calls).filter fun c => c.1 = a).map Prod.snd |>.getLast? with
  | none =>
    rw [List.getLast?_eq_none_iff, List.map_eq_nil_iff, List.filter_eq_nil_iff] at hlast
    exact absurd (hlast _ hws) (by simp)
  | some l =>
    rw [hlast] at this
    obtain ⟨v, hv, hget⟩ := this
    refine ⟨l.filter (· ≠ dashes), by rw [hget, list_value hk ht hv], ?_⟩
    intro s hs
    have hsl := (List.mem_filter.mp hs).1
    have hl := List.mem_of_getLast? hlast
    rw [List.mem_map] at hl
    obtain ⟨c, hc, rfl⟩ := hl
    obtain ⟨hc1, hc2⟩ := List.mem_filter.mp hc
    rw [decide_eq_true_eq] at hc2
    obtain ⟨q, hq, hcq⟩ := List.mem_flatMap.mp hc1
    rw [← h1]
    refine List.mem_flatMap.mpr ⟨q, hq, ?_⟩
    cases q with
    | files b ws => simp only [Part.calls, List.mem_singleton] at hcq; subst hcq; exact hsl
    | options w vs cs =>
      -- a positional argument is not an option
      exfalso
      have key : ∀ {w vs cs}, Reads p w vs cs → ∀ c ∈ cs, c.1.names ≠ [] := by
        intro w vs cs hr
        induction hr with
        | name a n w vs h1 h2 => intro c hc; rw [List.mem_singleton] at hc; subst hc; exact List.ne_nil_of_mem h2
        | equals a n w v h1 h2 => intro c hc; rw [List.mem_singleton] at hc; subst hc; exact List.ne_nil_of_mem h2
        | joined a c v h1 h2 => intro c hc; rw [List.mem_singleton] at hc; subst hc; exact List.ne_nil_of_mem h2
        | cluster a c e vs calls h1 h2 h3 h4 h5 h6 ih =>
          intro c hc
          rcases List.mem_cons.mp hc with rfl | hc
          · exact List.ne_nil_of_mem h2
          · exact ih c hc
      exact key (h3 _ hq).2.1 c hcq (by rw [hc2]; exact hn)

private theorem reads_values {p : Parser} {w : Text} {vs : List Text} {cs : List (Arg × List Text)} (h : Reads p w vs cs) :
    ∀ c ∈ cs, c.1.nargs = .num 2 → c.2 = vs ∧ vs.length = 2 := by
  induction h with
  | name a n w vs h1 h2 h3 h4 =>
    intro c hc hn
    rw [List.mem_singleton] at hc
    subst hc
    exact ⟨rfl, by rw [hn] at h4; exact h4⟩
  | equals a n w v h1 h2 h3 h4 h5 =>
    intro c hc hn
    rw [List.mem_singleton] at hc
    subst hc
    rw [hn] at h5
    simp [Fits] at h5
  | joined a c v h1 h2 h3 h4 h5 =>
    intro c hc hn
    rw [List.mem_singleton] at hc
    subst hc
    rw [hn] at h5
    simp [Fits] at h5
  | cluster a c e vs calls h1 h2 h3 h4 h5 h6 ih =>
    intro c hc hn
    rcases List.mem_cons.mp hc with rfl | hc
    · rw [hn] at h4
      simp [Fits] at h4
    · exact ih c hc hn

/-- **C83**: pgc_chdir always has two path prefixes. -/
theorem prefix_pair (args : List Text) (ns : AD String Val) (h : parseArgs pgcChdir args = .ok ns) :
    ∃ old new : Text, ns.get? "path_prefix_pair" = some (.list [.str old, .str new]) ∧
      (old = [] ∧ new = [] ∨ ∃ l w r, args = l ++ [w, old, new] ++ r) := by
  obtain ⟨parts, h1, h2, h3, ho⟩ := conserved (tools_wf pgcChdir (by simp [tools])).1 h
  let a : Arg := option ["-p", "--path-prefix-pair"] (nargs := .num 2) (default := .list [.str (t ""), .str (t "")])
  have := ho.2 a (by simp only [a]; decide +kernel) "path_prefix_pair" (by decide +kernel) _ rfl
  rw [show a.act = .store from rfl] at this
  dsimp only at this
  cases hlast : ((parts.flatMap Part.calls).filter fun c => c.1 = a).map Prod.snd |>.getLast? with
  | none =>
    rw [hlast] at this
    obtain ⟨v, hv, hget⟩ := this
    exact ⟨[], [], by rw [hget, show v = _ from hv]; rfl, .inl ⟨rfl, rfl⟩⟩
  | some l =>
    rw [hlast] at this
    obtain ⟨v, hv, hget⟩ := this
    have hl := List.mem_of_getLast? hlast
    rw [List.mem_map] at hl
    obtain ⟨c, hc, rfl⟩ := hl
    obtain ⟨hc1, hc2⟩ := List.mem_filter.mp hc
    rw [decide_eq_true_eq] at hc2
    obtain ⟨q, hq, hcq⟩ := List.mem_flatMap.mp hc1
    cases q with
    | files b ws =>
      exfalso
      simp only [Part.calls, List.mem_singleton] at hcq
      subst hcq
      have hb : b ∈ parts.flatMap Part.positional := List.mem_flatMap.mpr ⟨_, hq, by simp [Part.positional]⟩
      rw [h2] at hb
      have := (List.mem_filter.mp hb).2
      rw [decide_eq_true_eq, show b = a from hc2] at this
      revert this
      simp [a, option]
    | options w vs cs =>
      obtain ⟨-, hr, hd⟩ := h3 _ hq
      obtain ⟨hcv, hlen⟩ := reads_values hr c hcq (by rw [hc2]; rfl)
      obtain ⟨x, y, rfl⟩ : ∃ x y, vs = [x, y] := by
        rcases vs with _ | ⟨x, _ | ⟨y, _ | ⟨z, vs⟩⟩⟩ <;> simp at hlen
        exact ⟨x, y, rfl⟩
      rw [hcv] at hv
      unfold ValueOf at hv
      rw [show a.nargs = .num 2 from rfl, List.filter_eq_self.mpr (fun s hs => by
        rw [decide_eq_true_eq]; rintro rfl; exact hd hs)] at hv
      obtain ⟨us, rfl, hf⟩ := hv
      cases hf with
      | cons e1 hf =>
        cases hf with
        | cons e2 hf =>
          cases hf
          refine ⟨x, y, ?_, .inr ?_⟩
          · rw [hget, show _ = Val.str x from e1, show _ = Val.str y from e2]
          · obtain ⟨l, r, rfl⟩ := List.append_of_mem hq
            refine ⟨l.flatMap Part.words, w, r.flatMap Part.words, ?_⟩
            rw [← h1, List.flatMap_append, List.flatMap_cons]
            simp [Part.words]

/-- **C83**: the option `-t` of pgc_stats, whose type is the string `"int"`, can never give a number. -/
theorem threshold_never (args : List Text) (ns : AD String Val) (h : parseArgs pgcStats args = .ok ns) :
    ns.get? "threshold" = some (.int 0) ∨ ns.get? "threshold" = some (.list []) := by
  obtain ⟨parts, -, -, -, ho⟩ := conserved (tools_wf pgcStats (by simp [tools])).1 h
  have := ho.2 ((option ["-t", "--token_diff_threshold"] (ty := .notCallable) (default := .int 0)).called "threshold")
    (by simp [pgcStats, daeso]) "threshold" rfl (.int 0) rfl
  simp only [Arg.called, option] at this
  generalize hm : List.getLast? _ = o at this
  cases o with
  | none =>
    obtain ⟨v, hv, hget⟩ := this
    left
    rw [hget, show v = .int 0 from hv]
  | some l =>
    obtain ⟨v, hv, hget⟩ := this
    right
    rw [hget]
    unfold ValueOf at hv
    dsimp only at hv
    congr 1
    generalize l.filter (· ≠ dashes) = m at hv
    rcases m with _ | ⟨s, _ | ⟨s', m⟩⟩
    · obtain ⟨vs, rfl, hf⟩ := hv
      cases hf
      rfl
    · exact absurd hv id
    · obtain ⟨vs, rfl, hf⟩ := hv
      cases hf with
      | cons h1 _ => exact absurd h1 id

/-- **C83**: with gb_stats the option works, also for negative numbers. -/
theorem threshold_works {s pat : Text} {n : Int} (hs : Numeral s n) (hv : Value gbStats s) (hp : Value gbStats pat) :
    ∃ ns, parseArgs gbStats [t "-t", s, pat] = .ok ns ∧ ns.get? "threshold" = some (.int n) ∧ ns.get? "pattern" = some (.str pat) := by
  let a : Arg := (option ["-t", "--token_diff_threshold"] (ty := .int) (default := .int 0)).called "threshold"
  let b : Arg := positional "pattern" .one
  have ha : a ∈ gbStats := by simp [gbStats, daeso, a]
  have hb : b ∈ gbStats := by simp [gbStats, daeso, b]
  have hab : ¬ b = a := by decide +kernel
  have hba : ¬ a = b := by decide +kernel
  have hval : ∀ (s : Text) n, Numeral s n → s ≠ dashes := by
    rintro s n ⟨l, d, r, sg, rfl, hd, hdig, hsp, -⟩ he
    obtain ⟨c, hc⟩ := List.exists_mem_of_ne_nil d hd
    have : c ∈ l ++ sg ++ d ++ r := by simp [hc]
    rw [he] at this
    simp only [dashes, List.mem_cons, List.not_mem_nil, or_false, or_self] at this
    subst this
    exact absurd (hdig _ hc) (by decide)
  have hvalue : ∀ s : Text, Value gbStats s → s ≠ dashes := fun s h => (value_arg (tools_wf gbStats (by simp [tools])).1 h).2
  have hfs : [s].filter (fun x => decide (x ≠ dashes)) = [s] := by simp [hval s n hs]
  have hfp : [pat].filter (fun x => decide (x ≠ dashes)) = [pat] := by simp [hvalue pat hp]
  have vs : ∀ v, ValueOf a [s] v ↔ Means .int s v := by
    intro v
    unfold ValueOf
    rw [show a.nargs = .one from rfl, hfs]; exact Iff.rfl
  have vp : ∀ v, ValueOf b [pat] v ↔ Means .identity pat v := by
    intro v
    unfold ValueOf
    rw [show b.nargs = .one from rfl, hfp]; exact Iff.rfl
  obtain ⟨ns, h1, h2⟩ := complete (p := gbStats) (tools_wf gbStats (by simp [tools])).1 (tools_wf gbStats (by simp [tools])).2
    (before := [⟨t "-t", [s], [(a, [s])]⟩]) (after := []) (files := [pat]) (groups := [(b, [pat])])
    (by
      intro o ho
      rw [List.mem_singleton] at ho
      subst ho
      refine ⟨.name a (t "-t") (t "-t") [s] ha (by decide +kernel) (.inl rfl) rfl, by simpa using hv, ?_⟩
      intro c hc
      rw [List.mem_singleton] at hc
      subst hc
      exact ⟨by simp [a, option, Arg.called], by simp [a, option, Arg.called]⟩)
    (by simp) (by simpa using hp) ⟨show [b] = _ by decide +kernel, rfl, by simp [b, positional, Fits]⟩
    (by
      intro _ o ho
      simp only [List.getLast?_singleton, Option.some.injEq] at ho
      subst ho
      intro c hc
      rw [List.mem_singleton] at hc
      subst hc
      trivial)
    (by
      intro c hc
      simp only [List.flatMap_cons, List.flatMap_nil, List.append_nil, List.cons_append, List.nil_append, List.mem_cons,
        List.not_mem_nil, or_false] at hc
      rcases hc with rfl | rfl
      · exact ⟨.int n, (vs _).mpr ⟨n, hs, rfl⟩⟩
      · exact ⟨.str pat, (vp _).mpr rfl⟩)
  refine ⟨ns, h1, ?_, ?_⟩
  · have := h2.2 a ha "threshold" rfl (.int 0) rfl
    simp only [List.flatMap_cons, List.flatMap_nil, List.append_nil, List.cons_append, List.nil_append, List.filter_cons, hab,
      decide_true, decide_false, List.filter_nil, if_true, List.map_cons, List.map_nil, Bool.false_eq_true, if_false] at this
    rw [show a.act = .store from rfl] at this
    obtain ⟨v, hv, hget⟩ := this
    obtain ⟨m, hm, rfl⟩ := (vs v).mp hv
    rw [hget]
    have := parseInt_numeral.mpr hm
    rw [parseInt_numeral.mpr hs] at this
    cases this
    rfl
  · have := h2.2 b hb "pattern" rfl .none rfl
    simp only [List.flatMap_cons, List.flatMap_nil, List.append_nil, List.cons_append, List.nil_append, List.filter_cons, hba,
      decide_true, decide_false, List.filter_nil, if_true, List.map_cons, List.map_nil, Bool.false_eq_true, if_false] at this
    rw [show b.act = .store from rfl] at this
    obtain ⟨v, hv, hget⟩ := this
    rw [hget, show v = .str pat from (vp v).mp hv]

/-! ### Cases -/

-- options before and after the files, joined short options, the start of a long name, a value after `=`
example : (parseArgs pgcDiff [t "-ce", t "--first_a=An", t "x.pgc", t "y.pgc", t "-2", t "Bo"]).toOption.map (fun ns => ["with_comments", "evaluate", "with_ident", "first_annotator", "second_annotator", "corpus2", "relations"].map ns.get?) =
    some [some (.bool true), some (.bool true), some (.bool false), some (.str (t "An")), some (.str (t "Bo")), some (.str (t "y.pgc")), some .none] := by decide +kernel
-- files after an option that takes any number of values
example : parseArgs pgcDiff [t "-r", t "equals", t "x.pgc", t "y.pgc"] = .error .tooFew := by decide +kernel
example : (parseArgs pgcDiff [t "-r", t "equals", t "--", t "x.pgc", t "-y.pgc"]).toOption.map (fun ns => ["relations", "corpus2"].map ns.get?) =
    some [some (.list [.str (t "equals")]), some (.str (t "-y.pgc"))] := by decide +kernel
-- files on both sides of an option
example : parseArgs pgcCp [t "a", t "b", t "-o", t "c"] = .error (.unrecognized [t "c"]) := by decide +kernel
example : (parseArgs pgcCp [t "a", t "b", t "c", t "-o"]).toOption.map (fun ns => ["source", "target"].map ns.get?) =
    some [some (.list [.str (t "a"), .str (t "b")]), some (.str (t "c"))] := by decide +kernel
-- the options of pgc_diff have digits, so a negative number is an option there
example : parseArgs pgcDiff [t "-5", t "a", t "b"] = .error (.unrecognized [t "-5"]) := by decide +kernel
example : (parseArgs gbStats [t "-t", t "-3", t "*.xml"]).toOption.map (fun ns => ["threshold"].map ns.get?) =
    some [some (.int (-3))] := by decide +kernel
example : Value gbStats (t "-3") := .inr ⟨⟨'3', [], by decide +kernel, by decide⟩, by
  have : gbStats.all (fun a => a.names.all fun n => (n[1]?.all fun c => !c.isDigit) && (n[2]?.all fun c => !c.isDigit)) = true := by
    decide +kernel
  intro a ha n hn c hc
  have := List.all_eq_true.mp (List.all_eq_true.mp this a ha) n hn
  rw [Bool.and_eq_true] at this
  rcases hc with hc | hc <;> rw [hc] at this
  · simpa using this.1
  · simpa using this.2⟩
-- the type of the threshold of pgc_stats
example : parseArgs pgcStats [t "-t", t "3", t "*.pgc"] = .error (.notCallable ((option ["-t", "--token_diff_threshold"] (ty := .notCallable) (default := .int 0)).called "threshold")) := by decide +kernel
example : (parseArgs pgcStats [t "-t--", t "*.pgc"]).toOption.map (fun ns => ["threshold"].map ns.get?) =
    some [some (.list [])] := by decide +kernel
-- repeated options: the last one counts, or all of them
example : (parseArgs pgcSplit [t "-p", t "3", t "-p", t "4", t "a"]).toOption.map (fun ns => ["parts"].map ns.get?) =
    some [some (.int 4)] := by decide +kernel
example : (parseArgs pgcAgreement [t "-a", t "An", t "-aBo", t "a"]).toOption.map (fun ns => ["annotators"].map ns.get?) =
    some [some (.list [.str (t "An"), .str (t "Bo")])] := by decide +kernel
-- `--t` starts two names; `--ta` one
example : parseArgs ptcEval [t "--t", t "s"] = .error (.ambiguous (t "--t") [t "--true_corpora", t "--tag"]) := by decide +kernel
example : (parseArgs ptcEval [t "--ta", t "p", t "-t", t "a", t "b"]).toOption.map (fun ns => ["tag", "true_corpora", "pred_corpora"].map ns.get?) =
    some [some (.str (t "p")), some (.list [.str (t "a"), .str (t "b")]), some .none] := by decide +kernel
-- help and version
example : parseArgs pgcCp [t "-oh", t "a"] = .error .help := by decide +kernel
example : parseArgs pgcCp [t "--vers"] = .error .version := by decide +kernel
-- the file of ptc_n_to_id
example : (parseArgs ptcNToId [t "a.ptc"]).toOption.map (fun ns => ["corpus"].map ns.get?) =
    some [some (.list [.str (t "a.ptc")])] := by decide +kernel

end Verif.Props.CommandLine
