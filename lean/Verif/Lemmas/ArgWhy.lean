import Verif.Lemmas.ArgMore
import Verif.Spec.CommandErrors

/-! Why `argparse` refuses command lines. -/
set_option linter.unusedSectionVars false
namespace Verif.Argparse
open Verif Verif.Spec.CommandLine Verif.Spec.CommandErrors

/-! ### Ambiguous options -/

theorem filterMap_names (L : List (Text × Arg)) (f : Text × Arg → Option (Arg × Text × Option Text))
    (hf : ∀ o y, f o = some y → y.2.1 = o.1) :
    ((L.filterMap f).map fun t => t.2.1).Sublist (L.map Prod.fst) ∧
      ∀ n, (n ∈ (L.filterMap f).map fun t => t.2.1) ↔ ∃ o ∈ L, o.1 = n ∧ f o ≠ none := by
  induction L with
  | nil => simp
  | cons o L ih =>
    obtain ⟨h1, h2⟩ := ih
    cases ho : f o with
    | none =>
      rw [List.filterMap_cons_none ho]
      refine ⟨h1.cons _, fun n => ?_⟩
      rw [h2]
      simp [ho]
    | some y =>
      rw [List.filterMap_cons_some ho, List.map_cons, List.map_cons, hf o y ho]
      refine ⟨h1.cons_cons _, fun n => ?_⟩
      rw [List.mem_cons, h2]
      constructor
      · rintro (rfl | ⟨o', h3, h4⟩)
        · exact ⟨o, List.mem_cons_self, rfl, by simp [ho]⟩
        · exact ⟨o', List.mem_cons_of_mem _ h3, h4⟩
      · rintro ⟨o', h3, h4, h5⟩
        rcases List.mem_cons.mp h3 with rfl | h3
        · exact .inl h4.symm
        · exact .inr ⟨o', h3, h4, h5⟩

theorem mem_names {p : Parser} {n : Text} : n ∈ p.flatMap Arg.names ↔ ∃ o ∈ optionStrings p, o.1 = n := by
  rw [← optionStrings_fst, List.mem_map]

/-- A name and a string with `=`. -/
theorem begins_long {n r : Text} (hq : '=' ∉ n) (hn : n ≠ ['-', '-']) :
    Begins ('-' :: '-' :: r) n ↔
      (if '=' ∈ '-' :: '-' :: r then ('-' :: '-' :: r).takeWhile (· ≠ '=') else '-' :: '-' :: r) <+: n := by
  by_cases he : '=' ∈ '-' :: '-' :: r
  · rw [if_pos he]
    constructor
    · rintro (h | ⟨u, v, h1, h2, h3⟩ | ⟨c, v, rfl, h⟩)
      · exact absurd (h.subset he) hq
      · have hu : '=' ∉ u := fun h => hq (h3.subset h)
        rw [h1, List.takeWhile_append_of_pos (by intro c hc; simp only [ne_eq, decide_eq_true_eq]; rintro rfl; exact hu hc)]
        simpa using h3
      · simp only [List.cons.injEq, true_and] at h
        exact absurd (by rw [← h.1]) hn
    · intro h
      exact .inr (.inl ⟨_, _, split_at he, by simp [List.takeWhile_cons], h⟩)
  · rw [if_neg he]
    constructor
    · rintro (h | ⟨u, v, h1, h2, h3⟩ | ⟨c, v, rfl, h⟩)
      · exact h
      · rw [h1] at he; simp at he
      · simp only [List.cons.injEq, true_and] at h
        exact absurd (by rw [← h.1]) hn
    · exact .inl

theorem begins_short {n r : Text} {c : Char} (hc : c ≠ '-') :
    Begins ('-' :: c :: r) n ↔ n = ['-', c] ∨ ('-' :: c :: r) <+: n := by
  constructor
  · rintro (h | ⟨u, v, h1, ⟨x, rfl⟩, h3⟩ | ⟨d, v, rfl, h⟩)
    · exact .inr h
    · simp only [List.cons_append, List.nil_append, List.cons.injEq, true_and] at h1
      exact absurd h1.1 hc
    · simp only [List.cons.injEq, true_and] at h
      exact .inl (by rw [h.1])
  · rintro (rfl | h)
    · exact .inr (.inr ⟨c, r, rfl, rfl⟩)
    · exact .inl h

theorem names_not_dashes {p : Parser} (hp : WF p) {a : Arg} (ha : a ∈ p) {n : Text} (hn : n ∈ a.names) : n ≠ ['-', '-'] := by
  rintro rfl
  rcases hp.names a ha _ hn with ⟨c, h1, h2⟩ | ⟨r, h1, c, h2, -⟩
  · simp only [List.cons.injEq, and_true, true_and] at h1
    exact h2 h1.symm
  · simp only [List.cons.injEq, true_and] at h1
    subst h1
    simp at h2

/-- The names that a string can stand for. -/
theorem optionTuples_names {p : Parser} (hp : WF p) {s : Text} (hs : Dashed s) :
    ((optionTuples p s).map fun t => t.2.1).Sublist (p.flatMap Arg.names) ∧
      ∀ n ∈ p.flatMap Arg.names, (n ∈ (optionTuples p s).map fun t => t.2.1) ↔ Begins s n := by
  obtain ⟨hs, c₀, hc₀, hne⟩ := hs
  rcases s with _ | ⟨x, _ | ⟨c, r⟩⟩
  · simp at hs
  · simp only [List.head?_cons, Option.some.injEq] at hs
    subst hs
    simp at hc₀
    exact absurd hc₀ hne
  · simp only [List.head?_cons, Option.some.injEq] at hs
    subst hs
    have good : ∀ o ∈ optionStrings p, '=' ∉ o.1 ∧ o.1 ≠ ['-', '-'] := by
      rintro ⟨m, b⟩ hm
      obtain ⟨h1, h2⟩ := mem_optionStrings.mp hm
      exact ⟨hp.equals b h1 m h2, names_not_dashes hp h1 h2⟩
    by_cases hc : c = '-'
    · subst hc
      simp only [optionTuples]
      obtain ⟨h1, h2⟩ := filterMap_names (optionStrings p) (fun o =>
        if (if '=' ∈ '-' :: '-' :: r then ('-' :: '-' :: r).takeWhile (· ≠ '=') else '-' :: '-' :: r).isPrefixOf o.1 = true then
          some (o.2, o.1, if '=' ∈ '-' :: '-' :: r then some ((('-' :: '-' :: r).dropWhile (· ≠ '=')).drop 1) else none) else none) (by
        intro o y h
        rw [Option.ite_none_right_eq_some] at h
        obtain ⟨-, h⟩ := h
        cases h
        rfl)
      rw [optionStrings_fst] at h1
      refine ⟨h1, fun n hn => (h2 n).trans ?_⟩
      obtain ⟨o, ho, rfl⟩ := mem_names.mp hn
      rw [begins_long (good o ho).1 (good o ho).2, ← List.isPrefixOf_iff_prefix]
      constructor
      · rintro ⟨o', ho', h3, h4⟩
        rw [← h3]
        by_contra hcon
        exact h4 (if_neg hcon)
      · intro h
        exact ⟨o, ho, rfl, by rw [if_pos h]; simp⟩
    · have heq : optionTuples p ('-' :: c :: r) = (optionStrings p).filterMap fun o =>
          if o.1 = ('-' :: c :: r).take 2 then some (o.2, o.1, some (('-' :: c :: r).drop 2))
          else if ('-' :: c :: r).isPrefixOf o.1 then some (o.2, o.1, none) else none := by
        unfold optionTuples
        split
        · rename_i h
          simp only [List.cons.injEq, true_and] at h
          exact absurd h.1 hc
        · rfl
      rw [heq]
      obtain ⟨h1, h2⟩ := filterMap_names (optionStrings p) (fun o =>
          if o.1 = ('-' :: c :: r).take 2 then some (o.2, o.1, some (('-' :: c :: r).drop 2))
          else if ('-' :: c :: r).isPrefixOf o.1 then some (o.2, o.1, none) else none) (by
        intro o y h
        split at h
        · cases h; rfl
        · rw [Option.ite_none_right_eq_some] at h
          obtain ⟨-, h⟩ := h
          cases h
          rfl)
      rw [optionStrings_fst] at h1
      refine ⟨h1, fun n hn => (h2 n).trans ?_⟩
      obtain ⟨o, ho, rfl⟩ := mem_names.mp hn
      rw [begins_short hc]
      constructor
      · rintro ⟨o', ho', h3, h4⟩
        rw [← h3]
        by_cases h5 : o'.1 = ('-' :: c :: r).take 2
        · exact .inl h5
        · rw [if_neg h5] at h4
          by_cases h6 : ('-' :: c :: r).isPrefixOf o'.1 = true
          · exact .inr (List.isPrefixOf_iff_prefix.mp h6)
          · rw [if_neg h6] at h4; exact absurd rfl h4
      · intro h
        refine ⟨o, ho, rfl, ?_⟩
        by_cases h5 : o.1 = ('-' :: c :: r).take 2
        · rw [if_pos h5]; simp
        · rw [if_neg h5]
          rcases h with h | h
          · exact absurd h h5
          · rw [if_pos (List.isPrefixOf_iff_prefix.mpr h)]; simp

/-- Of two parts of a list without repetitions, that with fewer elements is a part of the other. -/
theorem sublist_of_mem {l m n : List Text} (h : n.Nodup) (hl : l.Sublist n) (hm : m.Sublist n) (hlm : ∀ x ∈ l, x ∈ m) : l.Sublist m := by
  induction h generalizing l m with
  | nil => rw [List.sublist_nil.mp hl]; exact List.nil_sublist _
  | @cons y n hy hn ih =>
    have hnot : y ∉ n := fun h => hy y h rfl
    cases hl with
    | cons _ hl =>
      cases hm with
      | cons _ hm => exact ih hl hm hlm
      | cons_cons _ hm =>
        refine (ih hl hm fun x hx => ?_).cons _
        rcases List.mem_cons.mp (hlm x hx) with rfl | h
        · exact absurd (hl.subset hx) hnot
        · exact h
    | cons_cons _ hl =>
      cases hm with
      | cons _ hm => exact absurd (hm.subset (hlm y List.mem_cons_self)) hnot
      | cons_cons _ hm =>
        refine (ih hl hm fun x hx => ?_).cons_cons _
        rcases List.mem_cons.mp (hlm x (List.mem_cons_of_mem _ hx)) with rfl | h
        · exact absurd (hl.subset hx) hnot
        · exact h

/-- When a string is ambiguous. -/
theorem parseOptional_error {p : Parser} (hp : WF p) {s : Text} {x : Stop} :
    parseOptional p s = .error x ↔ ∃ l, x = .ambiguous s l ∧ Ambiguous p s l := by
  have dashed_iff : Dashed s ↔ ¬ s = [] ∧ ¬ s.head? ≠ some '-' ∧ ¬ s.all (· = '-') = true := by
    unfold Dashed
    simp only [ne_eq, not_not, List.all_eq_true, decide_eq_true_eq]
    push Not
    constructor
    · rintro ⟨h1, h2⟩
      exact ⟨by rintro rfl; simp at h1, h1, h2⟩
    · rintro ⟨-, h1, h2⟩
      exact ⟨h1, h2⟩
  have same : ∀ l, Ambiguous p s l → l = (optionTuples p s).map fun t => t.2.1 := by
    intro l hl
    obtain ⟨h1, h2⟩ := optionTuples_names hp hl.dashed
    have hnd : (p.flatMap Arg.names).Nodup := hp.once
    refine List.Sublist.antisymm ?_ ?_
    all_goals
      first
      | exact sublist_of_mem hnd hl.sub h1 fun n hn => (h2 n (hl.sub.subset hn)).mpr ((hl.all n (hl.sub.subset hn)).mp hn)
      | exact sublist_of_mem hnd h1 hl.sub fun n hn => (hl.all n (h1.subset hn)).mpr ((h2 n (h1.subset hn)).mp hn)
  unfold parseOptional
  by_cases hd : Dashed s
  · obtain ⟨h1, h2, h3⟩ := dashed_iff.mp hd
    rw [if_neg h1, if_neg h2, if_neg h3]
    cases hl : lookup p s with
    | some a =>
      obtain ⟨i1, i2⟩ := lookup_some hl
      simp only [reduceCtorEq, false_iff, not_exists, not_and]
      rintro l - hamb
      exact hamb.new a i1 i2
    | none =>
      obtain ⟨n1, n2⟩ := optionTuples_names hp hd
      rcases ho : optionTuples p s with _ | ⟨⟨a, n, e⟩, _ | ⟨o', l⟩⟩
      · dsimp only
        constructor
        · intro h
          split at h
          · cases h
          · split at h <;> cases h
        · rintro ⟨l, -, hamb⟩
          have := hamb.many
          rw [same l hamb, ho] at this
          simp at this
      · simp only [reduceCtorEq, false_iff, not_exists, not_and]
        rintro l - hamb
        have := hamb.many
        rw [same l hamb, ho] at this
        simp at this
      · simp only [Except.error.injEq]
        rw [ho] at n1 n2
        constructor
        · rintro rfl
          exact ⟨_, rfl, hd, fun a ha => lookup_none hl ha, n1, n2, by simp⟩
        · rintro ⟨m, rfl, hamb⟩
          rw [same m hamb, ho]
  · have : ¬ ∃ l, x = .ambiguous s l ∧ Ambiguous p s l := fun ⟨_, _, h⟩ => hd h.dashed
    rw [iff_false_right this]
    intro h
    by_cases h1 : s = []
    · rw [if_pos h1] at h; cases h
    · rw [if_neg h1] at h
      by_cases h2 : s.head? ≠ some '-'
      · rw [if_pos h2] at h; cases h
      · rw [if_neg h2] at h
        by_cases h3 : s.all (· = '-') = true
        · rw [if_pos h3] at h; cases h
        · exact hd (dashed_iff.mpr ⟨h1, h2, h3⟩)

theorem dashed_iff {s : Text} : Dashed s ↔ ¬ s = [] ∧ ¬ s.head? ≠ some '-' ∧ ¬ s.all (· = '-') = true := by
  unfold Dashed
  simp only [ne_eq, not_not, List.all_eq_true, decide_eq_true_eq]
  push Not
  constructor
  · rintro ⟨h1, h2⟩
    exact ⟨by rintro rfl; simp at h1, h1, h2⟩
  · rintro ⟨-, h1, h2⟩
    exact ⟨h1, h2⟩

/-- What is known of a string from how it was understood. -/
def Seen (p : Parser) (w : Text) (t : Tok) : Prop :=
  (t.kind ≠ .A → ¬ Value p w) ∧ (∀ s, t = .unknown s → Unknown p w) ∧ ∀ a n e, t = .opt a n e → Dashed w

theorem parseOptional_seen {p : Parser} (hp : WF p) {w : Text} {t : Tok} (h : parseOptional p w = .ok t) : Seen p w t := by
  refine ⟨fun hk hv => ?_, fun s hs => ?_, fun a n e he => ?_⟩
  · rw [(value_arg hp hv).1] at h
    cases h
    exact hk rfl
  · subst hs
    have h0 := h
    unfold parseOptional at h
    by_cases h1 : w = []
    · rw [if_pos h1] at h; cases h
    · rw [if_neg h1] at h
      by_cases h2 : w.head? ≠ some '-'
      · rw [if_pos h2] at h; cases h
      · rw [if_neg h2] at h
        by_cases h3 : w.all (· = '-') = true
        · rw [if_pos h3] at h; cases h
        · rw [if_neg h3] at h
          have hd : Dashed w := dashed_iff.mpr ⟨h1, h2, h3⟩
          refine ⟨hd, fun a ha n hn hb => ?_⟩
          cases hl : lookup p w with
          | some a => rw [hl] at h; cases h
          | none =>
            rw [hl] at h
            have := (optionTuples_names hp hd).2 n (List.mem_flatMap.mpr ⟨a, ha, hn⟩)
            rcases ho : optionTuples p w with _ | ⟨⟨a, n, e⟩, _ | ⟨o', l⟩⟩
            · rw [ho] at this
              simp [hb] at this
            · rw [ho] at h; cases h
            · rw [ho] at h; cases h
  · subst he
    unfold parseOptional at h
    by_cases h1 : w = []
    · rw [if_pos h1] at h; cases h
    · rw [if_neg h1] at h
      by_cases h2 : w.head? ≠ some '-'
      · rw [if_pos h2] at h; cases h
      · rw [if_neg h2] at h
        by_cases h3 : w.all (· = '-') = true
        · rw [if_pos h3] at h; cases h
        · exact dashed_iff.mpr ⟨h1, h2, h3⟩

theorem args_seen (p : Parser) (ws : List Text) : List.Forall₂ (Seen p) ws (ws.map Tok.arg) := by
  induction ws with
  | nil => exact .nil
  | cons x ws ih => exact .cons ⟨fun h => absurd rfl h, by simp, by simp⟩ ih

theorem classify_seen {p : Parser} (hp : WF p) {ws : List Text} {ts : List Tok} (h : classify p ws = .ok ts) :
    List.Forall₂ (Seen p) ws ts := by
  induction ws generalizing ts with
  | nil => cases h; exact .nil
  | cons s ws ih =>
    rw [classify] at h
    split at h
    · rename_i hs
      cases h
      exact .cons ⟨fun _ hv => (value_arg hp hv).2 hs, by simp, by simp⟩ (args_seen p ws)
    · cases ho : parseOptional p s with
      | error e => rw [ho] at h; cases h
      | ok t =>
        rw [ho] at h
        cases hc : classify p ws with
        | error e => rw [hc] at h; cases h
        | ok ts' =>
          rw [hc] at h
          cases h
          exact .cons (parseOptional_seen hp ho) (ih hc)

/-- The first ambiguous string. -/
theorem classify_error {p : Parser} (hp : WF p) {ws : List Text} {x : Stop} :
    classify p ws = .error x ↔ ∃ A s B l, ws = A ++ s :: B ∧ x = .ambiguous s l ∧ Ambiguous p s l ∧ dashes ∉ A ∧
      ∀ w ∈ A, ¬ ∃ m, Ambiguous p w m := by
  have nodash : ∀ l, ¬ Ambiguous p dashes l := fun l h => by
    obtain ⟨-, c, hc, hne⟩ := h.dashed
    simp [dashes] at hc
    exact hne hc
  induction ws generalizing x with
  | nil => simp [classify]
  | cons w ws ih =>
    rw [classify]
    by_cases hw : w = ['-', '-']
    · rw [if_pos hw]
      simp only [reduceCtorEq, false_iff, not_exists, not_and]
      rintro A s B l h1 - h3 h4 -
      exfalso
      rcases A with _ | ⟨y, A⟩
      · simp only [List.nil_append, List.cons.injEq] at h1
        rw [← h1.1, hw] at h3
        exact nodash l h3
      · simp only [List.cons_append, List.cons.injEq] at h1
        rw [← h1.1, hw] at h4
        exact h4 List.mem_cons_self
    · rw [if_neg hw]
      cases ho : parseOptional p w with
      | error e =>
        obtain ⟨l, rfl, hl⟩ := (parseOptional_error hp).mp ho
        dsimp only
        constructor
        · intro h
          cases h
          exact ⟨[], w, ws, l, rfl, rfl, hl, by simp, by simp⟩
        · rintro ⟨A, s, B, m, h1, rfl, h3, -, h5⟩
          rcases A with _ | ⟨y, A⟩
          · simp only [List.nil_append, List.cons.injEq] at h1
            obtain ⟨rfl, -⟩ := h1
            have := (parseOptional_error hp).mpr ⟨m, rfl, h3⟩
            rw [ho] at this
            cases this
            rfl
          · simp only [List.cons_append, List.cons.injEq] at h1
            rw [h1.1] at hl
            exact absurd ⟨l, hl⟩ (h5 y List.mem_cons_self)
      | ok t =>
        have hno : ¬ ∃ m, Ambiguous p w m := by
          rintro ⟨m, hm⟩
          rw [(parseOptional_error hp).mpr ⟨m, rfl, hm⟩] at ho
          cases ho
        refine Iff.trans (b := classify p ws = .error x) ?_ ?_
        · dsimp only
          cases classify p ws <;> simp
        refine ih.trans ?_
        constructor
        · rintro ⟨A, s, B, l, rfl, h2, h3, h4, h5⟩
          refine ⟨w :: A, s, B, l, rfl, h2, h3, ?_, ?_⟩
          · rw [List.mem_cons, not_or]; exact ⟨fun h => hw h.symm, h4⟩
          · intro y hy
            rcases List.mem_cons.mp hy with rfl | hy
            · exact hno
            · exact h5 y hy
        · rintro ⟨A, s, B, l, h1, h2, h3, h4, h5⟩
          rcases A with _ | ⟨y, A⟩
          · simp only [List.nil_append, List.cons.injEq] at h1
            rw [← h1.1] at h3
            exact absurd ⟨l, h3⟩ hno
          · simp only [List.cons_append, List.cons.injEq] at h1
            rw [List.mem_cons, not_or] at h4
            exact ⟨A, s, B, l, h1.2, h2, h3, h4.2, fun v hv => h5 v (List.mem_cons_of_mem _ hv)⟩

/-! ### Values -/

theorem getValue_why {a : Arg} {s : Text} {x : Stop} (h : getValue a s = .error x) :
    x = .notCallable a ∧ a.ty = .notCallable ∨ x = .invalid a s ∧ a.ty = .int ∧ ¬ ∃ n, Numeral s n := by
  have hv : ∀ v, ¬ Means a.ty s v := fun v hv => by rw [getValue_iff.mpr hv] at h; cases h
  unfold getValue at h
  cases ha : a.ty with
  | identity => rw [ha] at h; cases h
  | notCallable => rw [ha] at h; cases h; exact .inl ⟨rfl, rfl⟩
  | int =>
    rw [ha] at h hv
    dsimp only at h
    cases hp : StatsTable.parseInt (Etree.strip isSpace s) with
    | ok n => rw [hp] at h; cases h
    | error e => rw [hp] at h; cases h; exact .inr ⟨rfl, rfl, fun ⟨n, hn⟩ => hv _ ⟨n, hn, rfl⟩⟩

theorem getList_why {a : Arg} {l : List Text} {x : Stop} (h : getList a l = .error x) : ∃ s ∈ l, getValue a s = .error x := by
  induction l with
  | nil => cases h
  | cons s l ih =>
    rw [getList] at h
    cases h1 : getValue a s with
    | error e => rw [h1] at h; cases h; exact ⟨s, List.mem_cons_self, h1⟩
    | ok v =>
      rw [h1] at h
      dsimp only at h
      cases h2 : getList a l with
      | error e =>
        rw [h2] at h; cases h
        obtain ⟨s, hs, h3⟩ := ih h2
        exact ⟨s, List.mem_cons_of_mem _ hs, h3⟩
      | ok vs => rw [h2] at h; cases h

theorem getValues_why {a : Arg} (ha : Plainly a) {l : List Text} {x : Stop} (h : getValues a l = .error x) :
    ∃ s, getValue a s = .error x ∧ (s ∈ l ∧ s ≠ dashes ∨ a.nargs = .opt ∧ a.const = .str s) := by
  have hmem : ∀ s, s ∈ l.filter (· ≠ ['-', '-']) → s ∈ l ∧ s ≠ dashes := fun s hs => by
    simpa [dashes] using List.mem_filter.mp hs
  unfold getValues at h
  dsimp only at h
  split at h
  · rename_i hc
    by_cases hn : a.names = []
    · exact absurd hc.2 (ha hn).1
    · rw [if_neg hn] at h
      dsimp only at h
      cases hg : getDefault a a.const with
      | ok v => rw [hg] at h; cases h
      | error e =>
        rw [hg] at h
        cases h
        cases hcon : a.const with
        | str s => rw [hcon] at hg; exact ⟨s, hg, .inr ⟨hc.2, rfl⟩⟩
        | none => rw [hcon] at hg; cases hg
        | bool b => rw [hcon] at hg; cases hg
        | int b => rw [hcon] at hg; cases hg
        | list b => rw [hcon] at hg; cases hg
  · split at h
    · split at h <;> cases h
    · generalize hf : l.filter (· ≠ ['-', '-']) = m at h hmem
      split at h
      · split at h
        · rename_i e he; cases h; exact ⟨_, he, .inl (hmem _ List.mem_cons_self)⟩
        · cases h
      · split at h
        · rename_i e he; cases h; exact ⟨_, he, .inl (hmem _ List.mem_cons_self)⟩
        · cases h
      · split at h
        · rename_i e he
          cases h
          obtain ⟨s, hs, h2⟩ := getList_why he
          exact ⟨s, h2, .inl (hmem _ hs)⟩
        · cases h

theorem takeAction_why {p : Parser} (hp : WF p) {args : List Text} {done : List (Arg × List Text)} {st : St} (ho : Outcome p done st.ns)
    {b : Arg} {l : List Text} (hb : Gives p args b l) {x : Stop} (h : takeAction b l st = .error x) : Why p args x := by
  have hval : ∀ y, getValues b l = .error y → Why p args y := by
    intro y hy
    obtain ⟨s, h1, h2⟩ := getValues_why (wf_plainly hp hb.1) hy
    rcases getValue_why h1 with ⟨rfl, h3⟩ | ⟨rfl, h3, h4⟩
    · exact ⟨h3, l, hb⟩
    · exact ⟨h3, h4, l, hb, h2⟩
  by_cases hact : b.act ≠ .help ∧ b.act ≠ .version
  · by_cases hv : ∃ v, ValueOf b l v
    · obtain ⟨st', hst⟩ := takeAction_ok hp ho hb.1 hv hact
      rw [hst] at h; cases h
    · unfold takeAction at h
      cases hg : getValues b l with
      | error e => rw [hg] at h; cases h; exact hval _ hg
      | ok o =>
        obtain ⟨v, rfl, hv'⟩ := (getValues_iff (wf_plainly hp hb.1)).mp hg
        exact absurd ⟨v, hv'⟩ hv
  · unfold takeAction at h
    cases hg : getValues b l with
    | error e => rw [hg] at h; cases h; exact hval _ hg
    | ok o =>
      rw [hg] at h
      cases o with
      | none => cases h
      | some v =>
        dsimp only at h
        unfold call at h
        cases hba : b.act with
        | help => rw [hba] at h; cases h; exact ⟨b, l, hba, hb⟩
        | version => rw [hba] at h; cases h; exact ⟨b, l, hba, hb⟩
        | store => simp [hba] at hact
        | const c => simp [hba] at hact
        | append => simp [hba] at hact

theorem takeAll_why {p : Parser} (hp : WF p) {args : List Text} {done calls : List (Arg × List Text)} {st : St} (ho : Outcome p done st.ns)
    (hc : ∀ c ∈ calls, Gives p args c.1 c.2) {x : Stop} (h : takeAll calls st = .error x) : Why p args x := by
  induction calls generalizing done st with
  | nil => cases h
  | cons c calls ih =>
    rw [takeAll] at h
    cases ht : takeAction c.1 c.2 st with
    | error e => rw [ht] at h; cases h; exact takeAction_why hp ho (hc c List.mem_cons_self) ht
    | ok s =>
      rw [ht] at h
      exact ih (outcome_step hp ho (hc c List.mem_cons_self).1 ht).1 (fun x hx => hc x (List.mem_cons_of_mem _ hx)) h

/-! ### Options -/

theorem matchArgument_error {a : Arg} {k : List Kind} {x : Stop} (h : matchArgument a k = .error x) :
    x = .expected a ∧ seqLens (pattern a) k = [] := by
  unfold matchArgument at h
  split at h
  · cases h
  · rename_i hs; cases h; exact ⟨rfl, hs⟩

/-- Letters `A` at the start. -/
theorem block (k : List Kind) : ∃ n r, k = List.replicate n .A ++ r ∧ r.head? ≠ some .A := by
  induction k with
  | nil => exact ⟨0, [], rfl, by simp⟩
  | cons x k ih =>
    cases x with
    | A =>
      obtain ⟨n, r, rfl, h⟩ := ih
      exact ⟨n + 1, r, by rw [List.replicate_succ, List.cons_append], h⟩
    | D => exact ⟨0, _, rfl, by simp⟩
    | O => exact ⟨0, _, rfl, by simp⟩

theorem cands_nil {k : Nargs} {n : Nat} (h : cands k n = []) : n < least k := by
  cases k with
  | one => simp only [cands] at h; split at h <;> simp_all [least]
  | opt => simp only [cands] at h; split at h <;> simp at h
  | star => cases n <;> simp [cands, down] at h
  | plus =>
    cases n with
    | zero => simp [least]
    | succ n => cases n <;> simp [cands, down] at h
  | num m => simp only [cands] at h; split at h <;> simp_all [least]

/-- There are not enough values. -/
theorem too_few {p : Parser} {a : Arg} (hn : a.names ≠ []) {ws : List Text} {rest : List Tok} (hw : List.Forall₂ (Seen p) ws rest)
    (h : seqLens (pattern a) (rest.map Tok.kind) = []) :
    ws.length < least a.nargs ∨ ∃ s ∈ ws.take (least a.nargs), ¬ Value p s := by
  obtain ⟨n, r, hk, hr⟩ := block (rest.map Tok.kind)
  rw [hk, option_block hn n r hr] at h
  have hlt := cands_nil h
  by_cases hl : ws.length < least a.nargs
  · exact .inl hl
  · right
    have hlen := congrArg List.length hk
    rw [List.length_map, List.length_append, List.length_replicate, ← hw.length_eq] at hlen
    rcases r with _ | ⟨c, r⟩
    · simp only [List.length_nil] at hlen; omega
    · have hget : (rest.map Tok.kind)[n]? = some c := by rw [hk]; simp
      rw [List.getElem?_map, Option.map_eq_some_iff] at hget
      obtain ⟨t, ht, rfl⟩ := hget
      obtain ⟨w, hw', hs⟩ := forall₂_get hw ht
      refine ⟨w, ?_, hs.1 ?_⟩
      · have : (ws.take (least a.nargs))[n]? = some w := by rw [List.getElem?_take_of_lt hlt]; exact hw'
        exact List.mem_of_getElem? this
      · intro hA; rw [hA] at hr; exact hr rfl

theorem single_why {p : Parser} {args x : List Text} {w : Text} {ws : List Text} (hargs : args = x ++ w :: ws) {a : Arg}
    (he : EndsWith p w a) (hn : a.names ≠ []) {rest : List Tok} (hw : List.Forall₂ (Seen p) ws rest) {y : Stop}
    (h : single a rest = .error y) : Why p args y := by
  unfold single at h
  cases hm : matchArgument a (rest.map Tok.kind) with
  | ok n => rw [hm] at h; cases h
  | error e =>
    rw [hm] at h
    cases h
    obtain ⟨rfl, hs⟩ := matchArgument_error hm
    exact .inr ⟨x, w, ws, hargs, he, too_few hn hw hs⟩

theorem one_value {a : Arg} (hn : a.names ≠ []) {n : Nat} (h : matchArgument a [.A] = .ok n) : n = 1 ∨ n = 0 ∧ a.nargs = .num 0 := by
  have h1 := option_block hn 1 [] (by simp)
  unfold matchArgument at h
  rw [show [Kind.A] = List.replicate 1 .A ++ [] from rfl, h1] at h
  cases hk : a.nargs with
  | one => rw [hk] at h; simp [cands] at h; exact .inl h.symm
  | opt => rw [hk] at h; simp [cands] at h; exact .inl h.symm
  | star => rw [hk] at h; simp [cands, down] at h; exact .inl h.symm
  | plus => rw [hk] at h; simp [cands, down] at h; exact .inl h.symm
  | num m =>
    rw [hk] at h
    simp only [cands] at h
    by_cases hm : m ≤ 1
    · rw [if_pos hm] at h
      simp only [Except.ok.injEq] at h
      subst h
      rcases m with _ | _ | m
      · exact .inr ⟨rfl, rfl⟩
      · exact .inl rfl
      · omega
    · rw [if_neg hm] at h; simp at h

theorem one_error {a : Arg} (hn : a.names ≠ []) {y : Stop} (h : matchArgument a [.A] = .error y) : y = .expected a ∧ 2 ≤ least a.nargs := by
  obtain ⟨rfl, hs⟩ := matchArgument_error h
  rw [show [Kind.A] = List.replicate 1 .A ++ [] from rfl, option_block hn 1 [] (by simp)] at hs
  exact ⟨rfl, cands_nil hs⟩

theorem cluster_why {p : Parser} (hp : WF p) {args x : List Text} {w : Text} {ws : List Text} (hargs : args = x ++ w :: ws) (hd : Dashed w)
    {rest : List Tok} (hw : List.Forall₂ (Seen p) ws rest) (e : Text) (he : e ≠ []) {u : Text} {c : Char} (hwe : w = '-' :: (u ++ c :: e))
    (hu : Flags p u) {a : Arg} (ha : a ∈ p) (hn : ['-', c] ∈ a.names) {y : Stop} (h : cluster p a ['-', c] e rest = .error y) :
    Why p args y := by
  have hmem : w ∈ args := by rw [hargs]; simp
  induction e generalizing a c u y with
  | nil => exact absurd rfl he
  | cons d e ih =>
    have hne : a.names ≠ [] := List.ne_nil_of_mem hn
    rw [cluster] at h
    cases hm : matchArgument a [.A] with
    | error z =>
      rw [hm] at h
      cases h
      obtain ⟨rfl, h2⟩ := one_error hne hm
      exact .inl ⟨h2, w, hmem, d :: e, .inr ⟨ha, by simp, u, c, hwe, hu, hn⟩⟩
    | ok n =>
      rw [hm] at h
      dsimp only at h
      rcases one_value hne hm with rfl | ⟨rfl, h0⟩
      · rw [if_neg (by simp), if_pos rfl] at h; cases h
      · rw [if_pos ⟨rfl, by simpa using short_char hp ha hn⟩] at h
        have hu' : Flags p (u ++ [c]) := by
          intro z hz
          rcases List.mem_append.mp hz with hz | hz
          · exact hu z hz
          · rw [List.mem_singleton] at hz; subst hz; exact ⟨a, ha, hn, h0⟩
        cases hl : lookup p ['-', d] with
        | none =>
          rw [hl] at h
          cases h
          exact ⟨h0, w, hmem, .inr ⟨d, e, ⟨ha, by simp, u, c, hwe, hu, hn⟩, fun b hb => lookup_none hl hb, rfl⟩⟩
        | some b =>
          obtain ⟨hb, hbn⟩ := lookup_some hl
          rw [hl] at h
          dsimp only at h
          by_cases hnil : e = []
          · rw [if_pos hnil] at h
            cases hs : single b rest with
            | error z =>
              rw [hs] at h
              cases h
              subst hnil
              exact single_why hargs ⟨hd, hb, .inr ⟨u ++ [c], d, by rw [hwe]; simp, hu', hbn⟩⟩ (List.ne_nil_of_mem hbn) hw hs
            | ok r => rw [hs] at h; cases h
          · rw [if_neg hnil] at h
            cases hs : cluster p b ['-', d] e rest with
            | error z =>
              rw [hs] at h; cases h
              exact ih hnil (by rw [hwe]; simp) hu' hb hbn hs
            | ok r => rw [hs] at h; cases h

theorem readOption_why {p : Parser} (hp : WF p) {args x : List Text} {w : Text} {ws : List Text} (hargs : args = x ++ w :: ws)
    {a : Arg} {n : Text} {e : Option Text} (hd : Denotes p w (.opt a n e)) (hs : Seen p w (.opt a n e)) {rest : List Tok}
    (hw : List.Forall₂ (Seen p) ws rest) {y : Stop} (h : readOption p a n e rest = .error y) : Why p args y := by
  have hmem : w ∈ args := by rw [hargs]; simp
  obtain ⟨-, h2, h3, h4⟩ := hd
  have hne := List.ne_nil_of_mem h3
  have hdash := hs.2.2 _ _ _ rfl
  unfold readOption at h
  rcases h4 with ⟨rfl, hpre⟩ | ⟨u, v, rfl, hwe, hu, hpre⟩ | ⟨c, v, rfl, hv, hc, rfl, hwe⟩
  · exact single_why hargs ⟨hdash, h2, .inl ⟨n, h3, hpre⟩⟩ hne hw h
  · dsimp only at h
    unfold cluster at h
    have has : Assigns p w a v := ⟨h2, n, h3, u, hwe, hu, hpre⟩
    cases hm : matchArgument a [.A] with
    | error z =>
      rw [hm] at h
      cases h
      obtain ⟨rfl, i2⟩ := one_error hne hm
      exact .inl ⟨i2, w, hmem, v, .inl has⟩
    | ok m =>
      rw [hm] at h
      dsimp only at h
      have hn1 : n[1]? = some '-' := by
        obtain ⟨r, rfl⟩ := hu
        obtain ⟨r', rfl⟩ := hpre
        rfl
      rw [if_neg (fun h => h.2 hn1)] at h
      rcases one_value hne hm with rfl | ⟨rfl, h0⟩
      · rw [if_pos rfl] at h; cases h
      · rw [if_neg (by simp)] at h
        cases h
        exact ⟨h0, w, hmem, .inl ⟨v, has, rfl⟩⟩
  · exact cluster_why hp hargs hdash hw v hv (u := []) hwe (by simp [Flags]) h2 h3 h

end Verif.Argparse
