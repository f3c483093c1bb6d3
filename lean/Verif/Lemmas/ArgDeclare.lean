import Verif.Lemmas.Base
import Verif.Spec.UsageHelp

/-! Declaring arguments. -/
namespace Verif.ArgHelp
open Verif Verif.Argparse Verif.Spec.UsageHelp
set_option linter.unusedSectionVars false
set_option linter.unusedVariables false
set_option linter.unusedSimpArgs false

theorem build_iff (names : List Text) (dest : String) (req : Option Bool) (d : Decl) (s : Shown) :
    build names dest req d = .ok s ↔ s.arg.names = names ∧ Acts d s.arg.nargs s.arg.act s.arg.default s.arg.ty ∧
      s.arg.const = .none ∧ s.metavar = d.metavar ∧ s.help = d.help ∧
      s.arg.dest = (if Decl.Asks d ∧ d.default.getD none = none then none else some dest) ∧ (Decl.Asks d → req = none) ∧
      s.arg.required = req.getD false := by
  obtain ⟨⟨a1, a2, a3, a4, a5, a6, a7, a8⟩, m, h⟩ := s
  obtain ⟨d1, d2, d3, d4, d5, d6, d7, d8, d9⟩ := d
  dsimp only
  constructor
  · intro e
    unfold build at e
    cases d4 <;> dsimp only at e
    · by_cases h0 : d3 = some (.num 0)
      · rw [if_pos h0] at e; cases e
      · rw [if_neg h0] at e
        cases e
        refine ⟨rfl, .store _ rfl rfl ?_, rfl, rfl, rfl, by simp [Decl.Asks], by simp [Decl.Asks], rfl⟩
        rcases d3 with _ | k
        · simp
        · intro hk
          exact h0 (by simpa using hk)
    · split at e
      · cases e
      · rename_i h0
        simp only [Bool.or_eq_true, not_or, Bool.not_eq_true, Option.isSome_eq_false_iff, Option.isNone_iff_eq_none] at h0
        obtain ⟨⟨rfl, rfl⟩, rfl⟩ := h0
        cases e
        exact ⟨rfl, .storeTrue rfl rfl rfl rfl, rfl, rfl, rfl, by simp [Decl.Asks], by simp [Decl.Asks], rfl⟩
    · split at e
      · cases e
      · rename_i h0
        simp only [Bool.or_eq_true, not_or, Bool.not_eq_true, Option.isSome_eq_false_iff, Option.isNone_iff_eq_none] at h0
        obtain ⟨⟨rfl, rfl⟩, rfl⟩ := h0
        cases e
        exact ⟨rfl, .storeFalse rfl rfl rfl rfl, rfl, rfl, rfl, by simp [Decl.Asks], by simp [Decl.Asks], rfl⟩
    · by_cases h0 : d3 = some (.num 0)
      · rw [if_pos h0] at e; cases e
      · rw [if_neg h0] at e
        cases e
        refine ⟨rfl, .append _ rfl rfl ?_, rfl, rfl, rfl, by simp [Decl.Asks], by simp [Decl.Asks], rfl⟩
        rcases d3 with _ | k
        · simp
        · intro hk
          exact h0 (by simpa using hk)
    · split at e
      · cases e
      · rename_i h0
        simp only [Bool.or_eq_true, not_or, Bool.not_eq_true, Option.isSome_eq_false_iff, Option.isNone_iff_eq_none] at h0
        obtain ⟨⟨⟨rfl, rfl⟩, rfl⟩, rfl⟩ := h0
        cases e
        exact ⟨rfl, .help rfl rfl rfl rfl, rfl, rfl, rfl, by simp [Decl.Asks], by simp, rfl⟩
    · split at e
      · cases e
      · rename_i h0
        simp only [Bool.or_eq_true, not_or, Bool.not_eq_true, Option.isSome_eq_false_iff, Option.isNone_iff_eq_none] at h0
        obtain ⟨⟨⟨rfl, rfl⟩, rfl⟩, rfl⟩ := h0
        cases e
        exact ⟨rfl, .version rfl rfl rfl rfl, rfl, rfl, rfl, by simp [Decl.Asks], by simp, rfl⟩
  · rintro ⟨rfl, ha, rfl, rfl, rfl, rfl, hr, rfl⟩
    unfold build
    rcases ha with ⟨k, h1, h2, h3⟩ | ⟨k, h1, h2, h3⟩ | ⟨h1, h2, h3, h4⟩ | ⟨h1, h2, h3, h4⟩ | ⟨h1, h2, h3, h4⟩ | ⟨h1, h2, h3, h4⟩
    · dsimp only at h1 h2
      subst h1
      rw [← h2] at h3
      have : d3 ≠ some (.num 0) := by rintro rfl; exact h3 rfl
      simp [this, Decl.Asks, h2]
    · dsimp only at h1 h2
      subst h1
      rw [← h2] at h3
      have : d3 ≠ some (.num 0) := by rintro rfl; exact h3 rfl
      simp [this, Decl.Asks, h2]
    · dsimp only at h1 h2 h3 h4
      subst h1 h2 h3 h4
      simp [Decl.Asks]
    · dsimp only at h1 h2 h3 h4
      subst h1 h2 h3 h4
      simp [Decl.Asks]
    · dsimp only at h1 h2 h3 h4
      subst h1 h2 h3 h4
      have := hr (.inl rfl)
      subst this
      simp [Decl.Asks]
    · dsimp only at h1 h2 h3 h4
      subst h1 h2 h3 h4
      have := hr (.inr rfl)
      subst this
      simp [Decl.Asks]

theorem goodName_iff {n : Text} : goodName n = true ↔ OptionName n := by
  unfold goodName OptionName
  simp only [Bool.and_eq_true, decide_eq_true_eq, List.any_eq_true, beq_iff_eq]
  constructor
  · rintro ⟨⟨-, h1⟩, c, h2, h3⟩
    exact ⟨h1, c, h2, by simpa using h3⟩
  · rintro ⟨h1, c, h2, h3⟩
    refine ⟨⟨?_, h1⟩, c, h2, by simpa using h3⟩
    rcases n with _ | ⟨a, _ | ⟨b, n⟩⟩
    · simp at h1
    · rcases List.mem_singleton.1 h2 with rfl
      exact absurd (by simpa using h1) h3
    · simp

theorem long_iff {n : Text} (h : OptionName n) : n[1]? = some '-' ↔ ['-', '-'] <+: n := by
  obtain ⟨h, -⟩ := h
  rcases n with _ | ⟨a, _ | ⟨b, n⟩⟩
  · simp at h
  · simp
  · have : a = '-' := by simpa using h
    subst this
    simp [eq_comm]

theorem dropDashes (n : Text) : ∃ k, n = List.replicate k '-' ++ n.dropWhile (· = '-') ∧ (n.dropWhile (· = '-')).head? ≠ some '-' := by
  induction n with
  | nil => exact ⟨0, rfl, by simp⟩
  | cons c n ih =>
    by_cases hc : c = '-'
    · obtain ⟨k, h1, h2⟩ := ih
      refine ⟨k + 1, ?_, ?_⟩
      · rw [List.dropWhile_cons_of_pos (by simpa using hc), List.replicate_succ, List.cons_append, ← h1, hc]
      · rw [List.dropWhile_cons_of_pos (by simpa using hc)]
        exact h2
    · refine ⟨0, ?_, ?_⟩
      · rw [List.dropWhile_cons_of_neg (by simpa using hc)]
        rfl
      · rw [List.dropWhile_cons_of_neg (by simpa using hc)]
        simpa using hc

theorem dashes_unique {k : Nat} {r : Text} (h : r.head? ≠ some '-') : (List.replicate k '-' ++ r).dropWhile (· = '-') = r := by
  induction k with
  | zero =>
    rcases r with _ | ⟨c, r⟩
    · rfl
    · exact List.dropWhile_cons_of_neg (by simpa using h)
  | succ k ih => rw [List.replicate_succ, List.cons_append, List.dropWhile_cons_of_pos (by simp), ih]

theorem filter_first {p : Text → Bool} : ∀ {l : List Text} {n : Text} {r : List Text}, l.filter p = n :: r →
    ∃ a b, l = a ++ n :: b ∧ p n = true ∧ ∀ m ∈ a, p m = false
  | [], _, _, h => by simp at h
  | m :: l, n, r, h => by
    by_cases hm : p m = true
    · rw [List.filter_cons_of_pos hm] at h
      obtain ⟨rfl, rfl⟩ := List.cons.inj h
      exact ⟨[], l, rfl, hm, by simp⟩
    · rw [List.filter_cons_of_neg hm] at h
      obtain ⟨a, b, rfl, h1, h2⟩ := filter_first h
      refine ⟨m :: a, b, rfl, h1, ?_⟩
      intro x hx
      rcases List.mem_cons.1 hx with rfl | hx
      · simpa using hm
      · exact h2 x hx

theorem destOf_iff {names : List Text} (hn : ∀ n ∈ names, OptionName n) (h0 : names ≠ []) (x : String) :
    DestOf names x ↔ x = destOf names := by
  have key : ∀ n : Text, ∃ k r, n = List.replicate k '-' ++ r ∧ r.head? ≠ some '-' ∧
      (String.ofList ((n.dropWhile (· = '-')).map fun c => if c = '-' then '_' else c)).toList =
        r.map (fun c => if c = '-' then '_' else c) := by
    intro n
    obtain ⟨k, h1, h2⟩ := dropDashes n
    exact ⟨k, _, h1, h2, by rw [String.toList_ofList]⟩
  have some_ : DestOf names (destOf names) := by
    unfold destOf
    dsimp only
    rcases hf : names.filter fun n => n[1]? = some '-' with _ | ⟨n, r⟩
    · obtain ⟨a, l, rfl⟩ := List.exists_cons_of_ne_nil h0
      obtain ⟨k, r, h1, h2, h3⟩ := key a
      refine ⟨a, k, r, h1, h2, h3, .inr ⟨rfl, fun m hm hp => ?_⟩⟩
      have := (List.filter_eq_nil_iff.1 hf) m hm
      exact this (by simpa using (long_iff (hn m hm)).2 hp)
    · obtain ⟨a, b, e, e1, e2⟩ := filter_first hf
      obtain ⟨k, q, h1, h2, h3⟩ := key n
      refine ⟨n, k, q, h1, h2, h3, .inl ⟨a, b, e, (long_iff (hn n (by rw [e]; simp))).1 (by simpa using e1), fun m hm hp => ?_⟩⟩
      have := e2 m hm
      have h' := (long_iff (hn m (by rw [e]; exact List.mem_append_left _ hm))).2 hp
      simp [h'] at this
  constructor
  · rintro ⟨n, k, r, rfl, h2, h3, h4⟩
    apply String.toList_inj.1
    rw [h3]
    unfold destOf
    dsimp only
    rw [String.toList_ofList]
    rcases h4 with ⟨a, b, e, e1, e2⟩ | ⟨e, e1⟩
    · have hf : ∃ q, names.filter (fun n => n[1]? = some '-') = (List.replicate k '-' ++ r) :: q := by
        refine ⟨b.filter (fun n => n[1]? = some '-'), ?_⟩
        rw [e, List.filter_append, List.filter_eq_nil_iff.2, List.nil_append, List.filter_cons_of_pos]
        · have := (long_iff (hn (List.replicate k '-' ++ r) (by rw [e]; simp))).2 e1
          simpa using this
        · intro m hm h
          refine e2 m hm ((long_iff (hn m (by rw [e]; exact List.mem_append_left _ hm))).1 (by simpa using h))
      obtain ⟨q, hf⟩ := hf
      rw [hf]
      dsimp only
      rw [dashes_unique h2]
    · have hf : names.filter (fun n => n[1]? = some '-') = [] := by
        rw [List.filter_eq_nil_iff]
        intro m hm h
        exact e1 m hm ((long_iff (hn m hm)).1 (by simpa using h))
      rw [hf]
      dsimp only
      rw [List.headD_eq_head?_getD, e, Option.getD_some, dashes_unique h2]
  · rintro rfl
    exact some_

/-- The argument of a call, before it is registered. -/
def single (d : Decl) : Except Refused Shown :=
  match d.names with
  | [] => match d.dest with
    | some x => positionalArg x d
    | none => .error .typeError
  | [[]] => .error .indexError
  | [c :: n] =>
    if c ≠ '-' then if d.dest.isSome then .error .typeError else positionalArg (String.ofList (c :: n)) d
    else optionalArg d
  | _ => optionalArg d

theorem addArgument_eq (p : List Shown) (d : Decl) : addArgument p d = (single d).bind (register p) := by
  unfold addArgument single
  simp only [bind]
  rcases d.names with _ | ⟨_ | ⟨c, n⟩, _ | ⟨m, l⟩⟩
  · dsimp only
    rcases d.dest with _ | x <;> rfl
  · rfl
  · rfl
  · dsimp only
    by_cases hc : c ≠ '-'
    · rw [if_pos hc, if_pos hc]
      by_cases hd : d.dest.isSome = true
      · rw [if_pos hd, if_pos hd]
      · rw [if_neg hd, if_neg hd]
    · rw [if_neg hc, if_neg hc]
  · rfl

theorem optional_iff (d : Decl) (h0 : d.names ≠ []) (s : Shown) : optionalArg d = .ok s ↔
    (∀ n ∈ d.names, OptionName n) ∧ s.arg.names = d.names ∧
      (∃ x, (d.dest = some x ∨ d.dest = none ∧ DestOf d.names x) ∧
        s.arg.dest = if Decl.Asks d ∧ d.default.getD none = none then none else some x) ∧
      Acts d s.arg.nargs s.arg.act s.arg.default s.arg.ty ∧ s.arg.const = .none ∧
      (Decl.Asks d → d.required = none) ∧ s.arg.required = d.required.getD false ∧ s.metavar = d.metavar ∧ s.help = d.help := by
  unfold optionalArg
  by_cases hn : d.names.all goodName = true
  · rw [if_pos hn, build_iff]
    have hn' : ∀ n ∈ d.names, OptionName n := fun n h => goodName_iff.1 (List.all_eq_true.1 hn n h)
    have hd : ∀ x, (d.dest = some x ∨ d.dest = none ∧ DestOf d.names x) ↔ x = d.dest.getD (destOf d.names) := by
      intro x
      rcases hx : d.dest with _ | y
      · simp only [reduceCtorEq, true_and, false_or, Option.getD_none]
        exact destOf_iff hn' h0 x
      · simp [eq_comm]
    simp only [hd, exists_eq_left]
    tauto
  · rw [if_neg hn]
    have : ¬ ∀ n ∈ d.names, OptionName n := fun h => hn (List.all_eq_true.2 fun n hn => goodName_iff.2 (h n hn))
    simp [this]

theorem positional_iff (x : String) (d : Decl) (s : Shown) : positionalArg x d = .ok s ↔
    s.arg.names = [] ∧ s.arg.dest = (if Decl.Asks d ∧ d.default.getD none = none then none else some x) ∧
      Acts d s.arg.nargs s.arg.act s.arg.default s.arg.ty ∧ s.arg.const = .none ∧ d.required = none ∧
      (s.arg.required = true ↔ d.nargs ≠ some .opt ∧ (d.nargs = some .star → d.default = none)) ∧
      (Decl.Asks d → s.arg.required = false) ∧ s.metavar = d.metavar ∧ s.help = d.help := by
  unfold positionalArg
  rcases hr : d.required with _ | b
  · rw [if_neg (by simp)]
    dsimp only
    rw [build_iff]
    have hm : (d.nargs ≠ some .opt && (d.nargs ≠ some .star || d.default.isNone)) = true ↔
        d.nargs ≠ some .opt ∧ (d.nargs = some .star → d.default = none) := by
      simp only [ne_eq, decide_not, Bool.and_eq_true, Bool.not_eq_eq_eq_not, Bool.not_true, decide_eq_false_iff_not, Bool.or_eq_true,
        Option.isNone_iff_eq_none]
      tauto
    rw [← hm]
    cases hb : (d.nargs ≠ some .opt && (d.nargs ≠ some .star || d.default.isNone))
    · simp only [Bool.false_eq_true, if_false, Option.getD_none, iff_false, Bool.not_eq_true]
      tauto
    · simp only [if_true, Option.getD_some, iff_true]
      have : s.arg.required = true → (s.arg.required = false ↔ False) := by intro h; rw [h]; simp
      constructor
      · rintro ⟨h1, h2, h3, h4, h5, h6, h7, h8⟩
        exact ⟨h1, h6, h2, h3, trivial, h8, fun h => absurd (h7 h) (by simp), h4, h5⟩
      · rintro ⟨h1, h2, h3, h4, h5, h6, h7, h8, h9⟩
        exact ⟨h1, h3, h4, h8, h9, h2, fun h => absurd (h7 h) (by simp [h6]), h6⟩
  · rw [if_pos (by simp)]
    simp

theorem single_iff (d : Decl) (s : Shown) : single d = .ok s ↔ Declares d s := by
  have noOption : ∀ x : Text, x.head? ≠ some '-' → ¬ OptionName x := fun x h h' => h h'.1
  constructor
  · intro h
    unfold single at h
    split at h
    · rename_i hn
      split at h
      · rename_i x hx
        obtain ⟨h1, h2, h3, h4, h5, h6, h7, h8, h9⟩ := (positional_iff x d s).1 h
        refine .positional s x.toList (.inr ⟨hn, ?_⟩) h1 ?_ h3 h4 h5 h6 h7 h8 h9
        · rw [String.ofList_toList]; exact hx
        · rw [String.ofList_toList]; exact h2
      · cases h
    · cases h
    · rename_i c n hn
      split at h
      · rename_i hc
        split at h
        · cases h
        · rename_i hd
          obtain ⟨h1, h2, h3, h4, h5, h6, h7, h8, h9⟩ := (positional_iff _ d s).1 h
          exact .positional s (c :: n) (.inl ⟨hn, by simpa using hd, by simpa using hc, by simp⟩) h1 h2 h3 h4 h5 h6 h7 h8 h9
      · have h0 : d.names ≠ [] := by rw [hn]; simp
        obtain ⟨h1, h2, h3, h4, h5, h6, h7, h8, h9⟩ := (optional_iff d h0 s).1 h
        exact .option s h1 h0 h2 h3 h4 h5 h6 h7 h8 h9
    · rename_i hn _ _
      have h0 : d.names ≠ [] := by rintro e; exact hn e
      obtain ⟨h1, h2, h3, h4, h5, h6, h7, h8, h9⟩ := (optional_iff d h0 s).1 h
      exact .option s h1 h0 h2 h3 h4 h5 h6 h7 h8 h9
  · intro h
    cases h with
    | option h1 h0 h2 h3 h4 h5 h6 h7 h8 h9 =>
      have := (optional_iff d h0 s).2 ⟨h1, h2, h3, h4, h5, h6, h7, h8, h9⟩
      unfold single
      split
      · rename_i hn; exact absurd hn h0
      · rename_i hn
        exact absurd (h1 [] (by rw [hn]; simp)).1 (by simp)
      · rename_i c n hn
        have hc : c = '-' := by simpa using (h1 (c :: n) (by rw [hn]; simp)).1
        rw [if_neg (by simpa using hc)]
        exact this
      · exact this
    | positional x hx h1 h2 h3 h4 h5 h6 h7 h8 h9 =>
      have := (positional_iff (String.ofList x) d s).2 ⟨h1, h2, h3, h4, h5, h6, h7, h8, h9⟩
      rcases hx with ⟨e1, e2, e3, e4⟩ | ⟨e1, e2⟩
      · obtain ⟨c, n, rfl⟩ := List.exists_cons_of_ne_nil e4
        unfold single
        rw [e1]
        dsimp only
        rw [if_pos (by simpa using e3), if_neg (by simp [e2])]
        exact this
      · unfold single
        rw [e1]
        dsimp only
        rw [e2]
        exact this

theorem register_iff (p : List Shown) (s : Shown) (q : List Shown) : register p s = .ok q ↔
    q = p ++ [s] ∧ ∀ b ∈ p, ∀ n ∈ b.arg.names, n ∉ s.arg.names := by
  unfold register
  dsimp only
  by_cases h : s.arg.names.filter (fun n => n ∈ p.flatMap fun b => b.arg.names) = []
  · rw [if_neg (by simpa using h)]
    have : ∀ b ∈ p, ∀ n ∈ b.arg.names, n ∉ s.arg.names := by
      intro b hb n hn hs
      have := List.filter_eq_nil_iff.1 h n hs
      exact this (by simpa using ⟨b, hb, hn⟩)
    constructor
    · intro e
      exact ⟨(Except.ok.inj e).symm, this⟩
    · rintro ⟨rfl, -⟩; rfl
  · rw [if_pos h]
    refine ⟨fun e => by simp at e, ?_⟩
    rintro ⟨-, h'⟩
    exfalso
    apply h
    rw [List.filter_eq_nil_iff]
    intro n hn hm
    obtain ⟨b, hb, hbn⟩ := by simpa using hm
    exact h' b hb n hbn hn

theorem declare_iff : ∀ (ds : List Decl) (p q : List Shown), declare p ds = .ok q ↔
    ∃ l, q = p ++ l ∧ List.Forall₂ Declares ds l ∧ Apart l ∧ ∀ b ∈ p, ∀ s ∈ l, ∀ n ∈ b.arg.names, n ∉ s.arg.names
  | [], p, q => by
    unfold declare
    constructor
    · intro h
      exact ⟨[], by simpa using (Except.ok.inj h).symm, .nil, .nil, by simp⟩
    · rintro ⟨l, rfl, h, -, -⟩
      cases h
      simp
  | d :: ds, p, q => by
    unfold declare
    simp only [bind, Except.bind]
    rw [addArgument_eq]
    constructor
    · intro h
      rcases hs : single d with e | s
      · rw [hs] at h; cases h
      rw [hs] at h
      simp only [Except.bind] at h
      rcases hr : register p s with e | p'
      · rw [hr] at h; cases h
      rw [hr] at h
      obtain ⟨rfl, h1⟩ := (register_iff p s p').1 hr
      obtain ⟨l, rfl, h2, h3, h4⟩ := (declare_iff ds _ q).1 h
      refine ⟨s :: l, by simp, .cons ((single_iff d s).1 hs) h2, .cons (fun b hb => h4 s (by simp) b hb) h3, ?_⟩
      intro b hb t ht
      rcases List.mem_cons.1 ht with rfl | ht
      · exact h1 b hb
      · exact h4 b (List.mem_append_left _ hb) t ht
    · rintro ⟨l, rfl, h2, h3, h4⟩
      cases h2 with
      | @cons _ s _ l hd hl =>
        rw [(single_iff d s).2 hd]
        simp only [Except.bind]
        rw [(register_iff p s (p ++ [s])).2 ⟨rfl, fun b hb => h4 b hb s (by simp)⟩]
        refine (declare_iff ds _ _).2 ⟨l, by simp, hl, (List.pairwise_cons.1 h3).2, ?_⟩
        intro b hb t ht
        rcases List.mem_append.1 hb with hb | hb
        · exact h4 b hb t (List.mem_cons_of_mem _ ht)
        · rcases List.mem_singleton.1 hb with rfl
          exact (List.pairwise_cons.1 h3).1 t ht

end Verif.ArgHelp
