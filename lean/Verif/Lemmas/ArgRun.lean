import Verif.Lemmas.ArgValue

/-! Command lines that `argparse` accepts. -/
set_option linter.unusedSectionVars false
namespace Verif.Argparse
open Verif Verif.Spec.CommandLine

theorem filterMap_unique {α β : Type} {l : List α} (hl : l.Nodup) {f : α → Option β} {x : α} (hx : x ∈ l) {y : β} (hy : f x = some y)
    (hz : ∀ z ∈ l, z ≠ x → f z = none) : l.filterMap f = [y] := by
  induction l with
  | nil => simp at hx
  | cons a l ih =>
    rw [List.nodup_cons] at hl
    by_cases ha : a = x
    · subst ha
      rw [List.filterMap_cons_some hy]
      congr 1
      rw [List.filterMap_eq_nil_iff]
      intro z hzl
      exact hz z (List.mem_cons_of_mem _ hzl) (by rintro rfl; exact hl.1 hzl)
    · rw [List.filterMap_cons_none (hz a List.mem_cons_self ha)]
      exact ih hl.2 (by
        rcases List.mem_cons.mp hx with h | h
        · exact absurd h.symm ha
        · exact h) fun z h => hz z (List.mem_cons_of_mem _ h)

theorem optionStrings_nodup {p : Parser} (hp : WF p) : (optionStrings p).Nodup := by
  apply List.Nodup.of_map Prod.fst
  rw [optionStrings_fst]
  exact hp.once

/-- The values of an option are those after it. -/
theorem matchArgument_values {a : Arg} (hn : a.names ≠ []) {m : Nat} (hf : Fits a.nargs m) {k : List Kind}
    (hk : Fixed a.nargs ∨ k.head? ≠ some .A) : matchArgument a (List.replicate m .A ++ k) = .ok m := by
  have hsplit : ∀ k : List Kind, ∃ j r, k = List.replicate j Kind.A ++ r ∧ r.head? ≠ some .A := by
    intro k
    induction k with
    | nil => exact ⟨0, [], rfl, by simp⟩
    | cons x k ih =>
      by_cases hx : x = .A
      · obtain ⟨j, r, h1, h2⟩ := ih
        exact ⟨j + 1, r, by rw [hx, h1, List.replicate_succ]; rfl, h2⟩
      · exact ⟨0, x :: k, rfl, by simpa using hx⟩
  obtain ⟨j, r, rfl, hr⟩ := hsplit k
  unfold matchArgument
  rw [← List.append_assoc, List.replicate_append_replicate, option_block hn _ _ hr]
  rcases hk with hk | hk
  · rw [fixed_cands hk hf, if_pos (by omega)]
  · have hj : j = 0 := by
      cases j with
      | zero => rfl
      | succ j => simp [List.replicate_succ] at hk
    subst hj
    rw [Nat.add_zero]
    cases ha : a.nargs with
    | one => rw [ha] at hf; simp only [Fits] at hf; subst hf; rfl
    | opt =>
      rw [ha] at hf
      simp only [Fits] at hf
      rcases (by omega : m = 0 ∨ m = 1) with rfl | rfl <;> rfl
    | star => cases m <;> rfl
    | plus =>
      rw [ha] at hf
      simp only [Fits] at hf
      obtain ⟨i, rfl⟩ : ∃ i, m = i + 1 := ⟨m - 1, by omega⟩
      simp only [cands]
      rw [if_pos (by omega), Nat.add_sub_cancel]
      cases i with
      | zero => rfl
      | succ i => simp [down]; omega
    | num q => rw [ha] at hf; simp only [Fits] at hf; subst hf; simp [cands]

theorem kinds_args (vs : List Text) : (vs.map Tok.arg).map Tok.kind = List.replicate vs.length .A := by
  simp [Tok.kind, Function.comp_def]

theorem texts_args (vs : List Text) : (vs.map Tok.arg).map Tok.text = vs := by
  induction vs with
  | nil => rfl
  | cons v vs ih => simp only [List.map_cons, Tok.text, ih]

theorem single_values {a : Arg} (hn : a.names ≠ []) {vs : List Text} (hf : Fits a.nargs vs.length) {T : List Tok}
    (hk : Fixed a.nargs ∨ (T.map Tok.kind).head? ≠ some .A) : single a (vs.map .arg ++ T) = .ok ([(a, vs)], T) := by
  unfold single
  rw [List.map_append, kinds_args, matchArgument_values hn hf hk]
  dsimp only
  have h1 : (vs.map Tok.arg ++ T).take vs.length = vs.map Tok.arg := by
    rw [List.take_append_of_le_length (by simp)]; exact List.take_of_length_le (by simp)
  have h2 : (vs.map Tok.arg ++ T).drop vs.length = T := by
    rw [List.drop_append_of_le_length (by simp), List.drop_of_length_le (by simp)]; rfl
  rw [h1, h2, texts_args]

theorem short_names {p : Parser} (hp : WF p) {a : Arg} (ha : a ∈ p) {c : Char} {v : Text} (hn : '-' :: c :: v ∈ a.names) (hc : c ≠ '-') :
    v = [] := by
  rcases hp.names a ha _ hn with ⟨c', h, -⟩ | ⟨r, h, -⟩
  · simp only [List.cons.injEq, true_and] at h; exact h.2
  · simp only [List.cons.injEq, true_and] at h; exact absurd h.1 hc

theorem short_char {p : Parser} (hp : WF p) {a : Arg} (ha : a ∈ p) {c : Char} (hn : ['-', c] ∈ a.names) : c ≠ '-' := by
  rcases hp.names a ha _ hn with ⟨c', h, h'⟩ | ⟨r, h, c', h', -⟩
  · simp only [List.cons.injEq, true_and, and_true] at h; rw [h]; exact h'
  · simp only [List.cons.injEq, true_and] at h; rw [← h.2] at h'; simp at h'

theorem matchArgument_one {a : Arg} (hn : a.names ≠ []) (hf : Fits a.nargs 1) : matchArgument a [.A] = .ok 1 := by
  have := matchArgument_values hn (m := 1) (k := []) hf (.inr (by simp))
  simpa using this

theorem matchArgument_none {a : Arg} (hn : a.names ≠ []) (hk : a.nargs = .num 0) : matchArgument a [.A] = .ok 0 := by
  have := matchArgument_values hn (m := 0) (k := [.A]) (by rw [hk]; rfl) (.inl (by rw [hk]; trivial))
  simpa using this

/-- Short options, joined or not. -/
theorem short_writes {p : Parser} (hp : WF p) {w : Text} {vs : List Text} {calls : List (Arg × List Text)} (h : Writes p w vs calls) :
    ∀ c v, w = '-' :: c :: v → c ≠ '-' → ∃ b ∈ p, ['-', c] ∈ b.names ∧ ∀ T : List Tok,
      ((∀ x ∈ calls, Fixed x.1.nargs) ∨ (T.map Tok.kind).head? ≠ some .A) →
      (if v = [] then single b (vs.map .arg ++ T) else cluster p b ['-', c] v (vs.map .arg ++ T)) = .ok (calls, T) := by
  induction h with
  | name a n w vs h1 h2 h3 h4 =>
    intro c v hw hc
    have hwn : w = n := by
      rcases h3 with h | ⟨-, ⟨r, h⟩, -⟩
      · exact h
      · rw [hw] at h; simp only [List.cons_append, List.cons.injEq, true_and] at h; exact absurd h.1.symm hc
    subst hwn
    rw [hw] at h2
    have hv := short_names hp h1 h2 hc
    subst hv
    refine ⟨a, h1, h2, fun T hT => ?_⟩
    rw [if_pos rfl]
    exact single_values (List.ne_nil_of_mem h2) h4 (hT.imp (fun h => h _ List.mem_cons_self) id)
  | equals a n w v' h1 h2 h3 h4 =>
    intro c v hw hc
    obtain ⟨⟨r, rfl⟩, -⟩ := h3
    simp only [List.cons_append, List.cons.injEq, true_and] at hw
    exact absurd hw.1.symm hc
  | joined a c' v' h1 h2 h3 h4 =>
    intro c v hw hc
    simp only [List.cons.injEq, true_and] at hw
    obtain ⟨rfl, rfl⟩ := hw
    refine ⟨a, h1, h2, fun T hT => ?_⟩
    rw [if_neg h3]
    unfold cluster
    rw [matchArgument_one (List.ne_nil_of_mem h2) h4]
    dsimp only
    rw [if_neg (by simp), if_pos rfl]
    rfl
  | cluster a c' e vs calls h1 h2 h3 h4 h5 h6 ih =>
    intro c v hw hc
    simp only [List.cons.injEq, true_and] at hw
    obtain ⟨rfl, rfl⟩ := hw
    refine ⟨a, h1, h2, fun T hT => ?_⟩
    rw [if_neg h4]
    cases e with
    | nil => exact absurd rfl h4
    | cons d e =>
      obtain ⟨b, hb, hbn, hrun⟩ := ih d e rfl (by simpa using h5)
      have := hrun T (hT.imp (fun h x hx => h x (List.mem_cons_of_mem _ hx)) id)
      rw [cluster, matchArgument_none (List.ne_nil_of_mem h2) h3]
      dsimp only
      rw [if_pos ⟨rfl, by simpa using hc⟩, lookup_name hp hb hbn]
      dsimp only
      rw [this]

theorem notAll {s : Text} (h : ∃ c ∈ s, c ≠ '-') : ¬ s.all (· = '-') = true := by
  rw [List.all_eq_true]
  obtain ⟨c, h1, h2⟩ := h
  intro h; have := h c h1; simp at this; exact h2 this

/-- A name is read as an option. -/
theorem parseOptional_name {p : Parser} (hp : WF p) {a : Arg} {n : Text} (ha : a ∈ p) (hn : n ∈ a.names) :
    parseOptional p n = .ok (.opt a n none) ∧ n ≠ dashes := by
  have hne : n ≠ [] ∧ n.head? = some '-' ∧ ∃ c ∈ n, c ≠ '-' := by
    rcases hp.names a ha n hn with ⟨c, rfl, hc⟩ | ⟨r, rfl, c, hc, hc'⟩
    · exact ⟨by simp, rfl, c, by simp, hc⟩
    · exact ⟨by simp, rfl, c, by simp [hc], hc'⟩
  unfold parseOptional
  rw [if_neg hne.1, if_neg (by rw [hne.2.1]; simp), if_neg (notAll hne.2.2), lookup_name hp ha hn]
  refine ⟨rfl, ?_⟩
  rintro rfl
  obtain ⟨c, h1, h2⟩ := hne.2.2
  simp [dashes] at h1
  exact h2 h1

theorem starts_tuple {p : Parser} (hp : WF p) {a : Arg} {n w : Text} (ha : a ∈ p) (hn : n ∈ a.names) (h : Starts p w n) :
    ∀ e : Option Text, (optionStrings p).filterMap (fun o => if w.isPrefixOf o.1 then some (o.2, o.1, e) else none) = [(a, n, e)] := by
  intro e
  refine filterMap_unique (optionStrings_nodup hp) (x := (n, a)) (mem_optionStrings.mpr ⟨ha, hn⟩) ?_ ?_
  · rw [if_pos (List.isPrefixOf_iff_prefix.mpr h.2.2.1)]
  · rintro ⟨m, b⟩ hm hne
    obtain ⟨hb, hmb⟩ := mem_optionStrings.mp hm
    rw [if_neg]
    intro hpre
    have := h.2.2.2 b hb m hmb (List.isPrefixOf_iff_prefix.mp hpre)
    subst this
    exact hne (by rw [name_unique hp hb hmb ha hn])

/-- How a string with options is read. -/
theorem writes_tok {p : Parser} (hp : WF p) {w : Text} {vs : List Text} {calls : List (Arg × List Text)} (h : Writes p w vs calls) :
    ∃ a n e, parseOptional p w = .ok (.opt a n e) ∧ w ≠ dashes ∧ ∀ T : List Tok,
      ((∀ x ∈ calls, Fixed x.1.nargs) ∨ (T.map Tok.kind).head? ≠ some .A) →
      readOption p a n e (vs.map .arg ++ T) = .ok (calls, T) := by
  -- joined options
  have short : ∀ c v, w = '-' :: c :: v → c ≠ '-' → v ≠ [] → ∃ a n e, parseOptional p w = .ok (.opt a n e) ∧ w ≠ dashes ∧ ∀ T : List Tok,
      ((∀ x ∈ calls, Fixed x.1.nargs) ∨ (T.map Tok.kind).head? ≠ some .A) →
      readOption p a n e (vs.map .arg ++ T) = .ok (calls, T) := by
    intro c v hw hc hv
    obtain ⟨b, hb, hbn, hrun⟩ := short_writes hp h c v hw hc
    refine ⟨b, ['-', c], some v, ?_, ?_, fun T hT => ?_⟩
    · have hl : lookup p w = none := by
        cases hl : lookup p w with
        | none => rfl
        | some a =>
          obtain ⟨h1, h2⟩ := lookup_some hl
          rw [hw] at h2
          exact absurd (short_names hp h1 h2 hc) hv
      unfold parseOptional
      rw [if_neg (by rw [hw]; simp), if_neg (by rw [hw]; simp), if_neg (notAll ⟨c, by rw [hw]; simp, hc⟩), hl]
      dsimp only
      have ht : optionTuples p w = [(b, ['-', c], some v)] := by
        subst hw
        have he : optionTuples p ('-' :: c :: v) = (optionStrings p).filterMap fun o =>
            if o.1 = ('-' :: c :: v).take 2 then some (o.2, o.1, some (('-' :: c :: v).drop 2))
            else if ('-' :: c :: v).isPrefixOf o.1 then some (o.2, o.1, none) else none := by
          unfold optionTuples
          split
          · rename_i heq
            simp only [List.cons.injEq, true_and] at heq
            exact absurd heq.1 hc
          · rfl
        rw [he]
        refine filterMap_unique (optionStrings_nodup hp) (x := (['-', c], b)) (mem_optionStrings.mpr ⟨hb, hbn⟩) ?_ ?_
        · rw [if_pos (by simp)]; simp
        · rintro ⟨m, a⟩ hm hne
          obtain ⟨ha, hma⟩ := mem_optionStrings.mp hm
          dsimp only
          rw [if_neg, if_neg]
          · intro hpre
            obtain ⟨r, hr⟩ := List.isPrefixOf_iff_prefix.mp hpre
            rw [← hr] at hma
            have := short_names hp ha (v := v ++ r) (by simpa using hma) hc
            simp at this
            exact hv this.1
          · intro hmc
            have hmc : m = ['-', c] := by simpa using hmc
            subst hmc
            exact hne (by rw [name_unique hp ha hma hb hbn])
      rw [ht]
    · rw [hw]; simp [dashes, hv]
    · have := hrun T hT
      rw [if_neg hv] at this
      exact this
  cases h with
  | name a n w vs h1 h2 h3 h4 =>
    by_cases hwn : w = n
    · subst hwn
      obtain ⟨h5, h6⟩ := parseOptional_name hp h1 h2
      exact ⟨a, w, none, h5, h6, fun T hT => single_values (List.ne_nil_of_mem h2) h4 (hT.imp (fun h => h _ List.mem_cons_self) id)⟩
    · obtain ⟨hd, hs⟩ := h3.resolve_left hwn
      refine ⟨a, n, none, ?_, (by rintro rfl; obtain ⟨c, h, h'⟩ := hd; simp [dashes] at h; exact h' h), fun T hT => single_values (List.ne_nil_of_mem h2) h4 (hT.imp (fun h => h _ List.mem_cons_self) id)⟩
      have hl : lookup p w = none := by
        cases hl : lookup p w with
        | none => rfl
        | some b =>
          obtain ⟨i1, i2⟩ := lookup_some hl
          exact absurd (hs.2.2.2 b i1 w i2 List.prefix_rfl) hwn
      obtain ⟨r, rfl⟩ := hs.1
      unfold parseOptional
      rw [if_neg (by simp), if_neg (by simp), if_neg (notAll hd), hl]
      dsimp only
      have ht : optionTuples p (['-', '-'] ++ r) = [(a, n, none)] := by
        have := starts_tuple hp h1 h2 hs none
        simp only [optionTuples, List.cons_append, List.nil_append]
        have hq : '=' ∉ '-' :: '-' :: r := by simpa using hs.2.1
        rw [if_neg hq, if_neg hq]
        simpa using this
      rw [ht]
  | equals a n w v h1 h2 h3 h4 =>
    refine ⟨a, n, some v, ?_, ?_, fun T hT => ?_⟩
    · have hl : lookup p (w ++ '=' :: v) = none := by
        cases hl : lookup p (w ++ '=' :: v) with
        | none => rfl
        | some b =>
          obtain ⟨i1, i2⟩ := lookup_some hl
          exact absurd (by simp) (hp.equals b i1 _ i2)
      unfold parseOptional
      have hs := h3
      obtain ⟨⟨r, rfl⟩, hq, -⟩ := h3
      rw [if_neg (by simp), if_neg (by simp), if_neg (notAll ⟨'=', by simp, by decide⟩), hl]
      dsimp only
      have ht : optionTuples p (['-', '-'] ++ r ++ '=' :: v) = [(a, n, some v)] := by
        have := starts_tuple hp h1 h2 hs (some v)
        simp only [optionTuples, List.cons_append, List.nil_append]
        have hq' : '=' ∈ '-' :: '-' :: (r ++ '=' :: v) := by simp
        have hr : '=' ∉ r := fun h => hq (by simp [h])
        have htw : ('-' :: '-' :: (r ++ '=' :: v)).takeWhile (fun x => decide (x ≠ '=')) = ['-', '-'] ++ r := by
          have : ('-' :: '-' :: (r ++ '=' :: v)) = (['-', '-'] ++ r) ++ '=' :: v := by simp
          rw [this, List.takeWhile_append_of_pos (by
            intro c hc
            simp only [ne_eq, decide_eq_true_eq]
            rintro rfl
            exact hq hc)]
          simp
        have hdw : (('-' :: '-' :: (r ++ '=' :: v)).dropWhile (fun x => decide (x ≠ '='))).drop 1 = v := by
          have : ('-' :: '-' :: (r ++ '=' :: v)) = (['-', '-'] ++ r) ++ '=' :: v := by simp
          rw [this, List.dropWhile_append_of_pos (by
            intro c hc
            simp only [ne_eq, decide_eq_true_eq]
            rintro rfl
            exact hq hc)]
          simp
        rw [if_pos hq', if_pos hq', htw, hdw]
        exact this
      rw [ht]
    · intro hd
      have : '=' ∈ dashes := by rw [← hd]; simp
      simp [dashes] at this
    · unfold readOption
      dsimp only
      unfold cluster
      rw [matchArgument_one (List.ne_nil_of_mem h2) h4]
      dsimp only
      rw [if_neg (by simp), if_pos rfl]
      rfl
  | joined a c v h1 h2 h3 h4 => exact short c v rfl (short_char hp h1 h2) h3
  | cluster a c e vs calls h1 h2 h3 h4 h5 h6 => exact short c e rfl (short_char hp h1 h2) h4

end Verif.Argparse
