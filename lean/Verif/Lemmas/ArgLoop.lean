import Verif.Lemmas.ArgRun

/-! The loop of `argparse` over a command line of options and files. -/
set_option linter.unusedSectionVars false
namespace Verif.Argparse
open Verif Verif.Spec.CommandLine

/-! ### Classification -/

theorem negative_false {p : Parser} (hp : WF p) {a : Arg} (ha : a ∈ p) {n : Text} (hn : n ∈ a.names)
    (h : ∀ c, n[1]? = some c ∨ n[2]? = some c → c.isDigit = false) : negativeNumber n = false := by
  obtain ⟨c, r, rfl⟩ : ∃ c r, n = '-' :: c :: r := by
    rcases hp.names a ha n hn with ⟨c, rfl, -⟩ | ⟨r, rfl, -⟩
    · exact ⟨c, [], rfl⟩
    · exact ⟨'-', r, rfl⟩
  have hc := h c (.inl rfl)
  simp only [negativeNumber, hc, Bool.false_or]
  rw [Bool.and_eq_false_iff]
  right
  rw [Bool.and_eq_false_iff, decide_eq_false_iff_not, not_not]
  cases r with
  | nil => left; simp
  | cons d r =>
    have hd := h d (.inr rfl)
    by_cases hl : (d :: r).getLast? = some '\n'
    · rw [if_pos hl]
      cases r with
      | nil => left; rfl
      | cons x r => right; simp [List.dropLast, hd]
    · rw [if_neg hl]
      right
      simp [hd]

/-- A string that does not look like an option. -/
theorem value_arg {p : Parser} (hp : WF p) {s : Text} (h : Value p s) : parseOptional p s = .ok (.arg s) ∧ s ≠ dashes := by
  rcases h with h | ⟨⟨c, r, rfl, hc⟩, hno⟩
  · refine ⟨?_, by rintro rfl; simp [dashes] at h⟩
    unfold parseOptional
    by_cases hs : s = []
    · rw [if_pos hs]
    · rw [if_neg hs, if_pos h]
  · have hcd : c ≠ '-' := by rintro rfl; simp at hc
    refine ⟨?_, by simp [dashes, hcd]⟩
    have hfree : ∀ a ∈ p, ∀ n ∈ a.names, n[1]? ≠ some c := by
      intro a ha n hn he
      have := hno a ha n hn c (.inl he)
      rw [hc] at this; cases this
    have hl : lookup p ('-' :: c :: r) = none := by
      cases hl : lookup p ('-' :: c :: r) with
      | none => rfl
      | some a => obtain ⟨h1, h2⟩ := lookup_some hl; exact absurd rfl (hfree a h1 _ h2)
    have ht : optionTuples p ('-' :: c :: r) = [] := by
      rw [List.eq_nil_iff_forall_not_mem]
      rintro ⟨a, n, e⟩ hm
      obtain ⟨-, h1, h2, h3⟩ := optionTuples_sound hl rfl (notAll ⟨c, by simp, hcd⟩) hm
      refine hfree a h1 n h2 ?_
      rcases h3 with ⟨-, t, rfl⟩ | ⟨u, v, -, hw, ⟨t, rfl⟩, -⟩ | ⟨c', v, -, -, -, rfl, hw⟩
      · rfl
      · simp only [List.cons_append, List.cons.injEq, true_and] at hw
        exact absurd hw.1 hcd
      · simp only [List.cons.injEq, true_and] at hw
        rw [hw.1]; rfl
    have hneg : hasNegative p = false := by
      rw [hasNegative, List.any_eq_false]
      rintro ⟨n, a⟩ hm
      obtain ⟨h1, h2⟩ := mem_optionStrings.mp hm
      simp [negative_false hp h1 h2 (hno a h1 n h2)]
    have hn : negativeNumber ('-' :: c :: r) = true := by simp [negativeNumber, hc]
    unfold parseOptional
    rw [if_neg (by simp), if_neg (by simp), if_neg (notAll ⟨c, by simp, hcd⟩), hl]
    dsimp only
    rw [ht]
    dsimp only
    rw [hn, hneg]
    rfl

theorem classify_append {p : Parser} {ws : List Text} {ts : List Tok}
    (h : List.Forall₂ (fun w t => parseOptional p w = .ok t ∧ w ≠ dashes) ws ts) (r : List Text) :
    classify p (ws ++ r) = match classify p r with
      | .error e => .error e
      | .ok us => .ok (ts ++ us) := by
  induction h with
  | nil => rw [List.nil_append]; cases classify p r <;> rfl
  | cons h1 h2 ih =>
    rw [List.cons_append, classify, if_neg (show ¬ _ = ['-', '-'] from h1.2), h1.1]
    dsimp only
    rw [ih]
    cases classify p r <;> rfl

theorem values_classified {p : Parser} (hp : WF p) {vs : List Text} (h : ∀ v ∈ vs, Value p v) :
    List.Forall₂ (fun w t => parseOptional p w = .ok t ∧ w ≠ dashes) vs (vs.map .arg) := by
  induction vs with
  | nil => exact .nil
  | cons v vs ih => exact .cons (value_arg hp (h v List.mem_cons_self)) (ih fun x hx => h x (List.mem_cons_of_mem _ hx))

/-- The tokens of a string with options and its values. -/
def Tokens (p : Parser) (o : Opt) (ts : List Tok) : Prop :=
  ∃ a n e, ts = .opt a n e :: o.values.map .arg ∧ ∀ T : List Tok, (o.Tight ∨ (T.map Tok.kind).head? ≠ some .A) →
    readOption p a n e (o.values.map .arg ++ T) = .ok (o.calls, T)

theorem opts_classified {p : Parser} (hp : WF p) {os : List Opt} (h : ∀ o ∈ os, o.Good p) :
    ∃ tss, List.Forall₂ (Tokens p) os tss ∧
      List.Forall₂ (fun w t => parseOptional p w = .ok t ∧ w ≠ dashes) (os.flatMap Opt.words) tss.flatten := by
  induction os with
  | nil => exact ⟨[], .nil, .nil⟩
  | cons o os ih =>
    obtain ⟨tss, h1, h2⟩ := ih fun x hx => h x (List.mem_cons_of_mem _ hx)
    obtain ⟨hw, hv, -⟩ := h o List.mem_cons_self
    obtain ⟨a, n, e, k1, k2, k3⟩ := writes_tok hp hw
    refine ⟨(.opt a n e :: o.values.map .arg) :: tss, .cons ⟨a, n, e, rfl, k3⟩ h1, ?_⟩
    rw [List.flatMap_cons, List.flatten_cons]
    exact List.rel_append (.cons ⟨k1, k2⟩ (values_classified hp hv)) h2

/-! ### Steps of the loop -/

theorem loop_option {p : Parser} {a : Arg} {n : Text} {e : Option Text} {rest T : List Tok} {calls : List (Arg × List Text)}
    (h : readOption p a n e rest = .ok (calls, T)) (fuel : Nat) (pos : List Arg) (st : St) (ex : List Text) :
    loop p (fuel + 1) (.opt a n e :: rest) pos st ex = match takeAll calls st with
      | .error x => .error x
      | .ok st => loop p fuel T pos st ex := by
  rw [loop]
  have hpl : Tok.plain (.opt a n e) = false := by simp [Tok.plain, Tok.kind]
  rw [if_neg (by simp [hpl])]
  simp only [List.takeWhile_cons, hpl, Bool.false_eq_true, if_false, if_true]
  rw [if_neg (by omega)]
  simp only [List.dropWhile_cons, hpl, Bool.false_eq_true, if_false, List.map_nil, List.append_nil]
  cases hst : takeAll calls st <;> simp only [h, hst]

/-- What comes after options. -/
def OptHead (T : List Tok) : Prop := (T.map Tok.kind).head? ≠ some .A ∧ (T.map Tok.kind).head? ≠ some .D

theorem tokens_head {p : Parser} {o : Opt} {ts : List Tok} (h : Tokens p o ts) (T : List Tok) : (( ts ++ T).map Tok.kind).head? = some .O := by
  obtain ⟨a, n, e, rfl, -⟩ := h
  rfl

/-- A row of options. -/
theorem loop_options {p : Parser} {os : List Opt} {tss : List (List Tok)} (h : List.Forall₂ (Tokens p) os tss) {T : List Tok}
    (hT : (∀ o, os.getLast? = some o → o.Tight) ∨ (T.map Tok.kind).head? ≠ some .A) {pos : List Arg} (st : St) {ex : List Text} {fuel : Nat}
    (hf : (tss.flatten ++ T).length < fuel) :
    ∃ fuel', T.length < fuel' ∧ loop p fuel (tss.flatten ++ T) pos st ex = match takeAll (os.flatMap Opt.calls) st with
      | .error x => .error x
      | .ok st => loop p fuel' T pos st ex := by
  induction h generalizing st fuel with
  | nil => exact ⟨fuel, by simpa using hf, rfl⟩
  | @cons o ts os tss h1 h2 ih =>
    have hcond : o.Tight ∨ ((tss.flatten ++ T).map Tok.kind).head? ≠ some .A := by
      cases h2 with
      | nil =>
        refine hT.imp (fun h => h o rfl) fun h => ?_
        simpa using h
      | @cons o' ts' os' tss' h3 h4 =>
        right
        rw [List.flatten_cons, List.append_assoc, tokens_head h3]
        simp
    have hT' : (∀ o, os.getLast? = some o → o.Tight) ∨ (T.map Tok.kind).head? ≠ some .A := by
      refine hT.imp (fun h o' ho' => h o' ?_) id
      cases os with
      | nil => simp at ho'
      | cons x os => simpa using ho'
    obtain ⟨a, n, e, rfl, hread⟩ := h1
    have hr := hread _ hcond
    rw [List.flatten_cons, List.append_assoc, List.cons_append] at hf ⊢
    obtain ⟨f, rfl⟩ : ∃ f, fuel = f + 1 := ⟨fuel - 1, by simp only [List.length_cons] at hf; omega⟩
    rw [loop_option hr f pos st ex, List.flatMap_cons, takeAll_append]
    cases takeAll o.calls st with
    | error x => exact ⟨T.length + 1, by omega, rfl⟩
    | ok s =>
      refine ih hT' s ?_
      simp only [List.length_cons, List.length_append, List.length_map] at hf ⊢
      omega

/-! ### Files -/

theorem slices_groups {gs : List (List Text)} {T : List Tok} : slices (gs.map List.length) (gs.flatten.map .arg ++ T) = gs := by
  induction gs generalizing T with
  | nil => rfl
  | cons g gs ih =>
    rw [List.map_cons, slices, List.flatten_cons, List.map_append, List.append_assoc]
    have h1 : (g.map Tok.arg ++ (gs.flatten.map Tok.arg ++ T)).take g.length = g.map Tok.arg := by
      rw [List.take_append_of_le_length (by simp)]; exact List.take_of_length_le (by simp)
    have h2 : (g.map Tok.arg ++ (gs.flatten.map Tok.arg ++ T)).drop g.length = gs.flatten.map Tok.arg ++ T := by
      rw [List.drop_append_of_le_length (by simp), List.drop_of_length_le (by simp)]; rfl
    rw [h1, h2, ih, texts_args]

theorem zip_groups (groups : List (Arg × List Text)) : (groups.map Prod.fst).zip (groups.map Prod.snd) = groups := by
  induction groups with
  | nil => rfl
  | cons g gs ih => simp only [List.map_cons, List.zip_cons_cons, ih]

theorem fits_groups {groups : List (Arg × List Text)} (h : ∀ g ∈ groups, Fits g.1.nargs g.2.length) :
    List.Forall₂ Fits ((groups.map Prod.fst).map Arg.nargs) ((groups.map Prod.snd).map List.length) := by
  induction groups with
  | nil => exact .nil
  | cons g gs ih => exact .cons (h g List.mem_cons_self) (ih fun x hx => h x (List.mem_cons_of_mem _ hx))

theorem definite_nargs {l : List Arg} (h : (l.filter fun a => ¬ Fixed a.nargs).length ≤ 1) :
    ((l.map Arg.nargs).filter fun k => ¬ Fixed k).length ≤ 1 := by
  rw [List.filter_map, List.length_map]
  exact h

/-- All positional arguments are filled by a block of files. -/
theorem consume_files {groups : List (Arg × List Text)} (hn : ∀ g ∈ groups, g.1.names = [])
    (hfit : ∀ g ∈ groups, Fits g.1.nargs g.2.length)
    (hdef : ((groups.map Prod.fst).filter fun a => ¬ Fixed a.nargs).length ≤ 1) {T : List Tok} (hT : Ends (T.map Tok.kind)) (st : St) :
    consumePositionals ((groups.map Prod.snd).flatten.map .arg ++ T) (groups.map Prod.fst) st = match takeAll groups st with
      | .error e => .error e
      | .ok st => .ok (st, [], (groups.map Prod.snd).flatten.length) := by
  have hsum : ((groups.map Prod.snd).map List.length).sum = (groups.map Prod.snd).flatten.length := by rw [List.length_flatten]
  have hm : matchPartial (groups.map Prod.fst) (((groups.map Prod.snd).flatten.map Tok.arg ++ T).map Tok.kind) =
      (groups.map Prod.snd).map List.length := by
    rw [matchPartial]
    have hg : matchGroups (groups.map Prod.fst) (((groups.map Prod.snd).flatten.map Tok.arg ++ T).map Tok.kind) =
        some ((groups.map Prod.snd).map List.length) := by
      rw [List.map_append, kinds_args, matchGroups_block (by simpa using hn) _ _ hT, ← hsum]
      exact assign_first (fits_groups hfit) (definite_nargs hdef)
    cases hlen : (groups.map Prod.fst).length with
    | zero =>
      have : groups = [] := by simpa using hlen
      subst this
      rfl
    | succ i =>
      rw [matchSlices, ← hlen, List.take_length, hg]
  unfold consumePositionals
  dsimp only
  rw [hm, slices_groups, zip_groups, hsum]
  cases takeAll groups st with
  | error e => rfl
  | ok s => simp

/-- The same after `--`. -/
theorem consume_dash {g : Arg × List Text} {groups : List (Arg × List Text)} (hn : ∀ x ∈ g :: groups, x.1.names = [])
    (hk : g.1.nargs = .one ∨ g.1.nargs = .plus ∨ ∃ m, g.1.nargs = .num (m + 1))
    (hfit : ∀ x ∈ g :: groups, Fits x.1.nargs x.2.length)
    (hdef : (((g :: groups).map Prod.fst).filter fun a => ¬ Fixed a.nargs).length ≤ 1) (st : St) :
    consumePositionals (.dash :: ((g :: groups).map Prod.snd).flatten.map .arg) ((g :: groups).map Prod.fst) st =
      match takeAll ((g.1, dashes :: g.2) :: groups) st with
      | .error e => .error e
      | .ok st => .ok (st, [], ((g :: groups).map Prod.snd).flatten.length + 1) := by
  have hE : Ends [] := by simp [Ends]
  have hgroups := matchGroups_block (l := groups.map Prod.fst) (fun a ha => by
    obtain ⟨x, hx, rfl⟩ := List.mem_map.mp ha; exact hn x (List.mem_cons_of_mem _ hx))
  have hassign := assign_first (fits_groups hfit) (definite_nargs hdef)
  have hsum : (((g :: groups).map Prod.snd).map List.length).sum = ((g :: groups).map Prod.snd).flatten.length := by rw [List.length_flatten]
  rw [hsum] at hassign
  generalize hN : ((g :: groups).map Prod.snd).flatten.length = N at hassign hsum ⊢
  have hkinds : (Tok.dash :: (((g :: groups).map Prod.snd).flatten.map Tok.arg)).map Tok.kind = .D :: List.replicate N .A := by
    rw [List.map_cons, kinds_args, hN]; rfl
  have hm : matchPartial ((g :: groups).map Prod.fst) (.D :: List.replicate N .A) =
      (g.2.length + 1) :: (groups.map Prod.snd).map List.length := by
    have hg : matchGroups ((g :: groups).map Prod.fst) (.D :: List.replicate N .A) =
        some ((g.2.length + 1) :: (groups.map Prod.snd).map List.length) := by
      rw [List.map_cons, matchGroups, pattern_dash (hn g List.mem_cons_self) hk, List.findSome?_map]
      rw [List.map_cons, List.map_cons, assign] at hassign
      have hcongr : (cands g.1.nargs N).findSome? ((fun n => (matchGroups (groups.map Prod.fst) ((Kind.D :: List.replicate N .A).drop n)).map (n :: ·)) ∘ (1 + ·)) =
          (cands g.1.nargs N).findSome? fun i => (assign ((groups.map Prod.fst).map Arg.nargs) (N - i)).map ((1 + i) :: ·) := by
        apply findSome_congr
        intro i hi
        simp only [Function.comp]
        rw [show 1 + i = i + 1 by omega, List.drop_succ_cons]
        have := hgroups (N - i) [] hE
        rw [List.append_nil] at this
        rw [List.drop_replicate, this]
      rw [hcongr]
      -- the first number for which the rest can be assigned
      obtain ⟨l₁, i, l₂, e1, e2, e3⟩ := List.findSome?_eq_some_iff.mp hassign
      rw [List.findSome?_eq_some_iff]
      rw [Option.map_eq_some_iff] at e2
      obtain ⟨r, hr, hri⟩ := e2
      simp only [List.map_cons, List.cons.injEq] at hri
      refine ⟨l₁, i, l₂, e1, ?_, ?_⟩
      · rw [hr, Option.map_some, hri.2, hri.1, Nat.add_comm]
      · intro j hj
        have := e3 j hj
        rw [Option.map_eq_none_iff] at this ⊢
        exact this
    rw [matchPartial, List.length_map, List.length_cons, matchSlices]
    have : ((g :: groups).map Prod.fst).take (groups.length + 1) = (g :: groups).map Prod.fst := by
      rw [List.take_of_length_le]; simp
    rw [this, hg]
  unfold consumePositionals
  dsimp only
  rw [hkinds, hm, slices]
  have h1 : (Tok.dash :: ((g :: groups).map Prod.snd).flatten.map Tok.arg).take (g.2.length + 1) = .dash :: g.2.map Tok.arg := by
    rw [List.take_succ_cons, List.map_cons, List.flatten_cons, List.map_append, List.take_append_of_le_length (by simp),
      List.take_of_length_le (by simp)]
  have h2 : (Tok.dash :: ((g :: groups).map Prod.snd).flatten.map Tok.arg).drop (g.2.length + 1) =
      (groups.map Prod.snd).flatten.map Tok.arg ++ [] := by
    rw [List.drop_succ_cons, List.map_cons, List.flatten_cons, List.map_append, List.drop_append_of_le_length (by simp),
      List.drop_of_length_le (by simp), List.append_nil]; rfl
  rw [h1, h2, slices_groups, List.map_cons, List.map_cons, texts_args, List.zip_cons_cons, zip_groups]
  have h3 : Tok.dash.text = dashes := rfl
  rw [h3]
  have h4 : ((g.2.length + 1) :: (groups.map Prod.snd).map List.length).sum = N + 1 := by
    rw [← hsum]
    simp only [List.map_cons, List.sum_cons]
    omega
  rw [h4]
  cases takeAll ((g.1, dashes :: g.2) :: groups) st with
  | error e => rfl
  | ok s => simp

theorem takeAction_dash (a : Arg) (l : List Text) (st : St) : takeAction a (dashes :: l) st = takeAction a l st := by
  unfold takeAction
  have : getValues a (dashes :: l) = getValues a l := by
    unfold getValues
    have : (dashes :: l).filter (fun s => decide (s ≠ ['-', '-'])) = l.filter (fun s => decide (s ≠ ['-', '-'])) :=
      List.filter_cons_of_neg (by simp [dashes])
    dsimp only
    rw [this]
  rw [this]

theorem ends_kinds {T : List Tok} (h : T = [] ∨ (T.map Tok.kind).head? = some .O) : Ends (T.map Tok.kind) := by
  rcases h with rfl | h
  · simp [Ends]
  · rw [Ends, h]; simp

/-- A block of files, in the loop. -/
theorem loop_files {p : Parser} {groups : List (Arg × List Text)} (hn : ∀ g ∈ groups, g.1.names = [])
    (hfit : ∀ g ∈ groups, Fits g.1.nargs g.2.length)
    (hdef : ((groups.map Prod.fst).filter fun a => ¬ Fixed a.nargs).length ≤ 1) {T : List Tok}
    (hT : (T.map Tok.kind).head? = some .O) (hne : (groups.map Prod.snd).flatten ≠ []) (st : St) {ex : List Text} {fuel : Nat} :
    loop p (fuel + 1) ((groups.map Prod.snd).flatten.map .arg ++ T) (groups.map Prod.fst) st ex = match takeAll groups st with
      | .error e => .error e
      | .ok st => loop p fuel T [] st ex := by
  rw [loop]
  obtain ⟨t, T', rfl⟩ : ∃ t T', T = t :: T' := by
    cases T with
    | nil => simp at hT
    | cons t T' => exact ⟨t, T', rfl⟩
  have ht : t.plain = false := by
    simp only [List.map_cons, List.head?_cons, Option.some.injEq] at hT
    simp [Tok.plain, hT]
  rw [if_neg (by simp [ht]), if_neg, consume_files hn hfit hdef (ends_kinds (.inr hT)) st]
  · cases takeAll groups st with
    | error e => rfl
    | ok s =>
      dsimp only
      rw [if_pos (List.length_pos_of_ne_nil hne)]
      congr 1
      rw [List.drop_append_of_le_length (by rw [List.length_map]), List.drop_of_length_le (by rw [List.length_map])]
      rfl
  · obtain ⟨f, fs, hfs⟩ := List.exists_cons_of_ne_nil hne
    rw [hfs, List.map_cons, List.cons_append, List.takeWhile_cons]
    rw [if_pos (by simp [Tok.plain, Tok.kind])]
    simp

/-- A block of files at the end. -/
theorem loop_last {p : Parser} {groups : List (Arg × List Text)} (hn : ∀ g ∈ groups, g.1.names = [])
    (hfit : ∀ g ∈ groups, Fits g.1.nargs g.2.length)
    (hdef : ((groups.map Prod.fst).filter fun a => ¬ Fixed a.nargs).length ≤ 1) (st : St) {ex : List Text} {fuel : Nat} :
    loop p (fuel + 1) ((groups.map Prod.snd).flatten.map .arg) (groups.map Prod.fst) st ex = match takeAll groups st with
      | .error e => .error e
      | .ok st => .ok (st, [], ex) := by
  rw [loop, if_pos]
  · have := consume_files hn hfit hdef (T := []) (ends_kinds (.inl rfl)) st
    rw [List.append_nil] at this
    rw [this]
    cases takeAll groups st with
    | error e => rfl
    | ok s =>
      dsimp only
      rw [List.drop_of_length_le (by rw [List.length_map]), List.map_nil, List.append_nil]
  · rw [List.all_eq_true]
    intro t ht
    obtain ⟨f, -, rfl⟩ := List.mem_map.mp ht
    simp [Tok.plain, Tok.kind]

/-- The same after `--`. -/
theorem loop_dash {p : Parser} {g : Arg × List Text} {groups : List (Arg × List Text)} (hn : ∀ x ∈ g :: groups, x.1.names = [])
    (hk : g.1.nargs = .one ∨ g.1.nargs = .plus ∨ ∃ m, g.1.nargs = .num (m + 1))
    (hfit : ∀ x ∈ g :: groups, Fits x.1.nargs x.2.length)
    (hdef : (((g :: groups).map Prod.fst).filter fun a => ¬ Fixed a.nargs).length ≤ 1) (st : St) {ex : List Text} {fuel : Nat} :
    loop p (fuel + 1) (.dash :: ((g :: groups).map Prod.snd).flatten.map .arg) ((g :: groups).map Prod.fst) st ex =
      match takeAll (g :: groups) st with
      | .error e => .error e
      | .ok st => .ok (st, [], ex) := by
  rw [loop, if_pos]
  · rw [consume_dash hn hk hfit hdef st, takeAll, takeAction_dash]
    rw [show takeAll (g :: groups) st = match takeAction g.1 g.2 st with
      | .error e => .error e
      | .ok st => takeAll groups st from rfl]
    cases takeAction g.1 g.2 st with
    | error e => rfl
    | ok s =>
      dsimp only
      cases takeAll groups s with
      | error e => rfl
      | ok s' =>
        dsimp only
        rw [List.drop_of_length_le (by rw [List.length_cons, List.length_map]), List.map_nil, List.append_nil]
  · rw [List.all_eq_true]
    intro t ht
    rcases List.mem_cons.mp ht with rfl | ht
    · simp [Tok.plain, Tok.kind]
    · obtain ⟨f, -, rfl⟩ := List.mem_map.mp ht
      simp [Tok.plain, Tok.kind]

/-- Strings that nothing can use. -/
theorem loop_extra {p : Parser} {more : List Text} {T : List Tok} (hT : (T.map Tok.kind).head? = some .O) (st : St) {ex : List Text}
    {fuel : Nat} : loop p (fuel + 1) (more.map .arg ++ T) [] st ex = loop p (fuel + 1) T [] st (ex ++ more) := by
  obtain ⟨t, T', rfl⟩ : ∃ t T', T = t :: T' := by
    cases T with
    | nil => simp at hT
    | cons t T' => exact ⟨t, T', rfl⟩
  have ht : t.plain = false := by
    simp only [List.map_cons, List.head?_cons, Option.some.injEq] at hT
    simp [Tok.plain, hT]
  have htw : (more.map Tok.arg ++ t :: T').takeWhile Tok.plain = more.map Tok.arg := by
    rw [List.takeWhile_append_of_pos (by
      intro x hx; obtain ⟨f, -, rfl⟩ := List.mem_map.mp hx; simp [Tok.plain, Tok.kind])]
    simp [List.takeWhile_cons, ht]
  have hdw : (more.map Tok.arg ++ t :: T').dropWhile Tok.plain = t :: T' := by
    rw [List.dropWhile_append_of_pos (by
      intro x hx; obtain ⟨f, -, rfl⟩ := List.mem_map.mp hx; simp [Tok.plain, Tok.kind])]
    simp [List.dropWhile_cons, ht]
  have hcons : consumePositionals (more.map Tok.arg ++ t :: T') [] st = .ok (st, [], 0) := rfl
  have hall : ¬ (more.map Tok.arg ++ t :: T').all Tok.plain = true := by simp [ht]
  have hall' : ¬ (t :: T').all Tok.plain = true := by simp [ht]
  have htw' : (t :: T').takeWhile Tok.plain = [] := by simp [ht]
  have hdw' : (t :: T').dropWhile Tok.plain = t :: T' := by simp [ht]
  rw [loop, loop, if_neg hall, if_neg hall', htw, hdw, hcons, htw', hdw']
  simp only [ite_self, if_true, List.map_nil, List.append_nil, texts_args]
  rw [if_neg (by omega), if_neg (by omega)]

theorem loop_extra_last {p : Parser} {more : List Text} (st : St) {ex : List Text} {fuel : Nat} :
    loop p (fuel + 1) (more.map .arg) [] st ex = .ok (st, [], ex ++ more) := by
  have hcons : consumePositionals (more.map Tok.arg) [] st = .ok (st, [], 0) := rfl
  rw [loop, if_pos, hcons]
  · dsimp only [List.drop_zero]
    rw [List.drop_zero, texts_args]
  · rw [List.all_eq_true]
    intro t ht
    obtain ⟨f, -, rfl⟩ := List.mem_map.mp ht
    simp [Tok.plain, Tok.kind]

/-! ### The actions -/

theorem takeAction_ok {p : Parser} (hp : WF p) {done : List (Arg × List Text)} {st : St} (ho : Outcome p done st.ns)
    {b : Arg} (hb : b ∈ p) {l : List Text} (hv : ∃ v, ValueOf b l v) (hact : b.act ≠ .help ∧ b.act ≠ .version) :
    ∃ st', takeAction b l st = .ok st' := by
  obtain ⟨v, hv⟩ := hv
  have hg : getValues b l = .ok (some v) := (getValues_iff (wf_plainly hp hb)).mpr ⟨v, rfl, hv⟩
  unfold takeAction
  rw [hg]
  dsimp only
  have : ∃ ns, call b v st.ns = .ok ns := by
    unfold call
    cases hba : b.act with
    | store => exact ⟨_, rfl⟩
    | const c => exact ⟨_, rfl⟩
    | help => exact absurd hba hact.1
    | version => exact absurd hba hact.2
    | append =>
      dsimp only
      obtain ⟨d, hd⟩ : ∃ d, b.dest = some d := by
        cases hx : b.dest with
        | none => exact absurd ((hp.stored b hb).mp hx) (by simp [hact])
        | some d => exact ⟨d, rfl⟩
      obtain ⟨v₀, hv₀, hshape⟩ : ∃ v₀, b.default = some v₀ ∧ (v₀ = .none ∨ ∃ l, v₀ = .list l) := by
        rcases hp.append b hb hba with h | ⟨l, h⟩
        · exact ⟨_, h, .inl rfl⟩
        · exact ⟨_, h, .inr ⟨l, rfl⟩⟩
      have := ho.2 b hb d hd v₀ hv₀
      rw [hba] at this
      obtain ⟨vs, -, hget⟩ := this
      rw [hd, Option.getD_some, hget]
      generalize (done.filter fun c => c.1 = b).map Prod.snd = mine
      rcases hshape with rfl | ⟨l, rfl⟩ <;> cases mine <;> exact ⟨_, rfl⟩
  obtain ⟨ns, hns⟩ := this
  rw [hns]
  exact ⟨_, rfl⟩

theorem takeAll_ok {p : Parser} (hp : WF p) {done calls : List (Arg × List Text)} {st : St} (ho : Outcome p done st.ns)
    (hc : ∀ c ∈ calls, c.1 ∈ p) (hv : Valued calls) (hact : ∀ c ∈ calls, c.1.act ≠ .help ∧ c.1.act ≠ .version) :
    ∃ st', takeAll calls st = .ok st' := by
  induction calls generalizing done st with
  | nil => exact ⟨st, rfl⟩
  | cons c calls ih =>
    obtain ⟨s, hs⟩ := takeAction_ok hp ho (hc c List.mem_cons_self) (hv c List.mem_cons_self) (hact c List.mem_cons_self)
    obtain ⟨h1, -⟩ := outcome_step hp ho (hc c List.mem_cons_self) hs
    rw [takeAll, hs]
    exact ih h1 (fun x hx => hc x (List.mem_cons_of_mem _ hx)) (fun x hx => hv x (List.mem_cons_of_mem _ hx))
      (fun x hx => hact x (List.mem_cons_of_mem _ hx))

theorem takeAction_seen {a : Arg} {l : List Text} {st st' : St} (h : takeAction a l st = .ok st') : st'.seen = a :: st.seen := by
  unfold takeAction at h
  cases hg : getValues a l with
  | error e => rw [hg] at h; cases h
  | ok o =>
    rw [hg] at h
    cases o with
    | none => cases h; rfl
    | some v =>
      dsimp only at h
      cases hc : call a v st.ns with
      | error e => rw [hc] at h; cases h
      | ok ns => rw [hc] at h; cases h; rfl

theorem takeAll_seen {calls : List (Arg × List Text)} {st st' : St} (h : takeAll calls st = .ok st') :
    ∀ a, (a ∈ st.seen ∨ ∃ c ∈ calls, c.1 = a) → a ∈ st'.seen := by
  induction calls generalizing st with
  | nil =>
    cases h
    intro a ha
    rcases ha with ha | ⟨c, hc, -⟩
    · exact ha
    · simp at hc
  | cons c calls ih =>
    rw [takeAll] at h
    cases ht : takeAction c.1 c.2 st with
    | error e => rw [ht] at h; cases h
    | ok s =>
      rw [ht] at h
      intro a ha
      refine ih h a ?_
      rw [takeAction_seen ht]
      rcases ha with ha | ⟨x, hx, rfl⟩
      · exact .inl (List.mem_cons_of_mem _ ha)
      · rcases List.mem_cons.mp hx with rfl | hx
        · exact .inl List.mem_cons_self
        · exact .inr ⟨x, hx, rfl⟩

theorem defaults_ok {p : Parser} (hd : ∀ a ∈ p, ∀ v₀, a.default = some v₀ → ∃ v, Default a.ty v₀ v) (ns₀ : AD String Val) :
    ∃ ns, defaults p ns₀ = .ok ns := by
  induction p generalizing ns₀ with
  | nil => exact ⟨ns₀, rfl⟩
  | cons a p ih =>
    have ih := ih fun a ha => hd a (List.mem_cons_of_mem _ ha)
    rw [defaults]
    cases hx : a.dest with
    | none => exact ih ns₀
    | some d =>
      cases hv : a.default with
      | none => exact ih ns₀
      | some v =>
        dsimp only
        split
        · exact ih ns₀
        · obtain ⟨w, hw⟩ := hd a List.mem_cons_self v hv
          rw [getDefault_iff.mpr hw]
          exact ih _

end Verif.Argparse
