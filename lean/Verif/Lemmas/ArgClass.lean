import Verif.Lemmas.ArgPattern

/-! How the strings of a command line are classified by `argparse`. -/
set_option linter.unusedSectionVars false
namespace Verif.Argparse
open Verif Verif.Spec.CommandLine

theorem mem_optionStrings {p : Parser} {n : Text} {a : Arg} : (n, a) ∈ optionStrings p ↔ a ∈ p ∧ n ∈ a.names := by
  simp only [optionStrings, List.mem_flatMap, List.mem_map, Prod.mk.injEq]
  constructor
  · rintro ⟨b, hb, m, hm, rfl, rfl⟩; exact ⟨hb, hm⟩
  · rintro ⟨h1, h2⟩; exact ⟨a, h1, n, h2, rfl, rfl⟩

theorem lookup_some {p : Parser} {n : Text} {a : Arg} (h : lookup p n = some a) : a ∈ p ∧ n ∈ a.names := by
  rw [lookup, Option.map_eq_some_iff] at h
  obtain ⟨⟨m, b⟩, h1, h2⟩ := h
  have h3 := List.mem_of_find?_eq_some h1
  have h4 := List.find?_some h1
  simp only [decide_eq_true_eq] at h4
  dsimp only at h2
  subst h4 h2
  exact mem_optionStrings.mp h3

theorem lookup_none {p : Parser} {n : Text} (h : lookup p n = none) {a : Arg} (ha : a ∈ p) : n ∉ a.names := by
  intro hn
  rw [lookup, Option.map_eq_none_iff, List.find?_eq_none] at h
  exact h (n, a) (mem_optionStrings.mpr ⟨ha, hn⟩) (by simp)

theorem optionStrings_fst (p : Parser) : (optionStrings p).map Prod.fst = p.flatMap Arg.names := by
  simp only [optionStrings, List.map_flatMap, List.map_map]
  congr 1
  funext a
  exact (List.map_congr_left fun _ _ => rfl).trans (List.map_id _)

/-- A name belongs to one argument. -/
theorem name_unique {p : Parser} (hp : WF p) {n : Text} {a b : Arg} (ha : a ∈ p) (hn : n ∈ a.names) (hb : b ∈ p) (hn' : n ∈ b.names) :
    a = b := by
  have h : ((optionStrings p).map Prod.fst).Nodup := by rw [optionStrings_fst]; exact hp.once
  have := List.inj_on_of_nodup_map h (mem_optionStrings.mpr ⟨ha, hn⟩) (mem_optionStrings.mpr ⟨hb, hn'⟩) rfl
  exact (Prod.mk.inj this).2

theorem lookup_name {p : Parser} (hp : WF p) {n : Text} {a : Arg} (ha : a ∈ p) (hn : n ∈ a.names) : lookup p n = some a := by
  cases h : lookup p n with
  | none => exact absurd hn (lookup_none h ha)
  | some b =>
    obtain ⟨h1, h2⟩ := lookup_some h
    rw [name_unique hp ha hn h1 h2]

/-- What a string is read as. -/
def Denotes (p : Parser) (w : Text) : Tok → Prop
  | .arg s => s = w
  | .dash => w = dashes
  | .unknown s => s = w
  | .opt a n e => w.head? = some '-' ∧ a ∈ p ∧ n ∈ a.names ∧
    (e = none ∧ w <+: n ∨ (∃ u v, e = some v ∧ w = u ++ '=' :: v ∧ ['-', '-'] <+: u ∧ u <+: n) ∨
      ∃ c v, e = some v ∧ v ≠ [] ∧ c ≠ '-' ∧ n = ['-', c] ∧ w = '-' :: c :: v)

theorem split_at {s : Text} {c : Char} (h : c ∈ s) : s = s.takeWhile (· ≠ c) ++ c :: (s.dropWhile (· ≠ c)).drop 1 := by
  induction s with
  | nil => simp at h
  | cons x s ih =>
    by_cases hx : x = c
    · subst hx; simp
    · have h' : c ∈ s := by
        rcases List.mem_cons.mp h with e | e
        · exact absurd e.symm hx
        · exact e
      rw [List.takeWhile_cons, List.dropWhile_cons]
      simp only [ne_eq, hx, not_false_eq_true, decide_true, if_true, List.cons_append]
      exact congrArg _ (by simpa using ih h')

theorem optionTuples_sound {p : Parser} {s : Text} (hl : lookup p s = none) (hs : s.head? = some '-') (hd : ¬ s.all (· = '-') = true)
    {a : Arg} {n : Text} {e : Option Text} (h : (a, n, e) ∈ optionTuples p s) : Denotes p s (.opt a n e) := by
  rcases s with _ | ⟨x, _ | ⟨c, r⟩⟩
  · simp at hs
  · simp only [List.head?_cons, Option.some.injEq] at hs; subst hs; simp at hd
  · simp only [List.head?_cons, Option.some.injEq] at hs
    subst hs
    by_cases hc : c = '-'
    · subst hc
      simp only [optionTuples, List.mem_filterMap] at h
      obtain ⟨⟨m, b⟩, hm, he⟩ := h
      obtain ⟨h1, h2⟩ := mem_optionStrings.mp hm
      rw [Option.ite_none_right_eq_some] at he
      obtain ⟨hpre, he⟩ := he
      simp only [Option.some.injEq, Prod.mk.injEq] at he
      obtain ⟨rfl, rfl, he⟩ := he
      by_cases hq : '=' ∈ '-' :: '-' :: r
      · rw [if_pos hq] at hpre he
        refine ⟨rfl, h1, h2, .inr (.inl ⟨_, _, he.symm, split_at hq, ?_, List.isPrefixOf_iff_prefix.mp hpre⟩)⟩
        simp [List.takeWhile_cons]
      · rw [if_neg hq] at hpre he
        exact ⟨rfl, h1, h2, .inl ⟨he.symm, List.isPrefixOf_iff_prefix.mp hpre⟩⟩
    · have h' : (a, n, e) ∈ (optionStrings p).filterMap fun o =>
          if o.1 = ('-' :: c :: r).take 2 then some (o.2, o.1, some (('-' :: c :: r).drop 2))
          else if ('-' :: c :: r).isPrefixOf o.1 then some (o.2, o.1, none) else none := by
        unfold optionTuples at h
        split at h
        · rename_i heq
          simp only [List.cons.injEq, true_and] at heq
          exact absurd heq.1 hc
        · exact h
      simp only [List.mem_filterMap] at h'
      obtain ⟨⟨m, b⟩, hm, he⟩ := h'
      obtain ⟨h1, h2⟩ := mem_optionStrings.mp hm
      split at he
      · rename_i hm2
        simp only [Option.some.injEq, Prod.mk.injEq] at he
        obtain ⟨rfl, rfl, rfl⟩ := he
        dsimp only at hm2
        refine ⟨rfl, h1, h2, .inr (.inr ⟨c, r, rfl, ?_, hc, hm2, rfl⟩)⟩
        rintro rfl
        exact lookup_none hl h1 (by rw [← show m = ['-', c] from hm2]; exact h2)
      · split at he
        · rename_i hpre
          simp only [Option.some.injEq, Prod.mk.injEq] at he
          obtain ⟨rfl, rfl, rfl⟩ := he
          exact ⟨rfl, h1, h2, .inl ⟨rfl, List.isPrefixOf_iff_prefix.mp hpre⟩⟩
        · simp at he

theorem parseOptional_sound {p : Parser} {s : Text} {t : Tok} (h : parseOptional p s = .ok t) : Denotes p s t ∧ t ≠ .dash := by
  unfold parseOptional at h
  split at h
  · cases h; exact ⟨rfl, by simp⟩
  · split at h
    · cases h; exact ⟨rfl, by simp⟩
    · rename_i h1 h2
      split at h
      · cases h; exact ⟨rfl, by simp⟩
      · rename_i h3
        have hh : s.head? = some '-' := by simpa using h2
        cases hl : lookup p s with
        | some a =>
          rw [hl] at h
          cases h
          obtain ⟨i1, i2⟩ := lookup_some hl
          exact ⟨⟨hh, i1, i2, .inl ⟨rfl, List.prefix_rfl⟩⟩, by simp⟩
        | none =>
          rw [hl] at h
          rcases ho : optionTuples p s with _ | ⟨⟨a, n, e⟩, _ | ⟨o', l⟩⟩
          · rw [ho] at h
            dsimp only at h
            split at h
            · cases h; exact ⟨rfl, by simp⟩
            · split at h
              · cases h; exact ⟨rfl, by simp⟩
              · cases h; exact ⟨rfl, by simp⟩
          · rw [ho] at h
            cases h
            exact ⟨optionTuples_sound hl hh h3 (by rw [ho]; simp), by simp⟩
          · rw [ho] at h; cases h

theorem args_denote (p : Parser) (ws : List Text) : List.Forall₂ (Denotes p) ws (ws.map Tok.arg) := by
  induction ws with
  | nil => exact .nil
  | cons x ws ih => exact .cons rfl ih

/-- How all strings are classified. -/
theorem classify_sound {p : Parser} {ws : List Text} {ts : List Tok} (h : classify p ws = .ok ts) :
    List.Forall₂ (Denotes p) ws ts ∧ (ts.map Tok.kind).count .D ≤ 1 := by
  induction ws generalizing ts with
  | nil => cases h; exact ⟨.nil, by simp⟩
  | cons s ws ih =>
    rw [classify] at h
    split at h
    · rename_i hs
      cases h
      refine ⟨.cons hs ?_, ?_⟩
      · exact args_denote p ws
      · have : (ws.map Tok.arg).map Tok.kind = List.replicate ws.length .A := by simp [Tok.kind, Function.comp_def]
        rw [List.map_cons, Tok.kind, List.count_cons_self, this]
        simp [List.count_replicate]
    · cases ho : parseOptional p s with
      | error e => rw [ho] at h; cases h
      | ok t =>
        rw [ho] at h
        cases hc : classify p ws with
        | error e => rw [hc] at h; cases h
        | ok ts' =>
          rw [hc] at h
          cases h
          obtain ⟨h1, h2⟩ := ih hc
          obtain ⟨h3, h4⟩ := parseOptional_sound ho
          refine ⟨.cons h3 h1, ?_⟩
          rw [List.map_cons, List.count_cons_of_ne]
          · exact h2
          · cases t <;> simp_all [Tok.kind]

end Verif.Argparse
