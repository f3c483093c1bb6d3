import Verif.Lemmas.ArgUsage

/-! The help text and its lines. -/
namespace Verif.ArgHelp
open Verif Verif.Argparse Verif.Spec.UsageHelp
set_option linter.unusedSectionVars false

/-! ### Newlines at the end -/

/-- No two newlines together. -/
def Single (a b : Char) : Prop := ¬(a = '\n' ∧ b = '\n')

theorem longBreaks_single : ∀ {t : Text} (r : Text) (k : Nat), t.IsChain Single → k ≤ 1 → (k = 1 → t.head? ≠ some '\n') →
    t.getLast? ≠ some '\n' → t ≠ [] → longBreaks k (t ++ r) = t ++ longBreaks 0 r
  | [], r, k, _, _, _, _, h => absurd rfl h
  | [c], r, k, _, hk, _, hl, _ => by
    have : c ≠ '\n' := by simpa using hl
    simp [longBreaks, this]
  | c :: d :: t, r, k, hc, hk, hh, hl, _ => by
    have h1 : Single c d := by cases hc; assumption
    have h2 : (d :: t).IsChain Single := by cases hc; assumption
    rw [List.cons_append, longBreaks]
    by_cases he : c = '\n'
    · have hk0 : k = 0 := by
        by_contra h
        exact hh (by omega) (by simp [he])
      subst hk0
      rw [if_pos he, if_pos (by omega), longBreaks_single r 1 h2 (by omega) (fun _ => by
        simp only [List.head?_cons, ne_eq, Option.some.injEq]
        exact fun h => h1 ⟨he, h⟩) (by simpa using hl) (by simp)]
      rfl
    · rw [if_neg he, longBreaks_single r 0 h2 (by omega) (by omega) (by simpa using hl) (by simp)]
      rfl

theorem finish_single {t : Text} (hc : t.IsChain Single) (hh : t.head? ≠ some '\n') (hl : t.getLast? ≠ some '\n') (hne : t ≠ []) :
    finish [t ++ "\n\n".toList] = t ++ "\n".toList := by
  obtain ⟨c, r, rfl⟩ := List.exists_cons_of_ne_nil hne
  have hc0 : c ≠ '\n' := by simpa using hh
  have e : ((c :: r) ++ "\n\n".toList ++ ['\n']) = (c :: r) ++ "\n\n\n".toList := by simp
  unfold finish
  rw [List.flatten_singleton]
  dsimp only
  rw [if_neg (by simp), if_neg (by simp), show '\n' :: (c :: r ++ "\n\n".toList) ++ ['\n'] = '\n' :: ((c :: r) ++ "\n\n".toList ++ ['\n']) from rfl, longBreaks, if_pos rfl,
    if_pos (by omega), e, longBreaks_single _ 1 hc (by omega) (fun _ => hh) hl hne]
  have e2 : longBreaks 0 "\n\n\n".toList = "\n\n".toList := by decide
  rw [e2]
  unfold stripNewlines
  have e3 : ('\n' :: (c :: r ++ "\n\n".toList)).dropWhile (· = '\n') = c :: r ++ "\n\n".toList := by
    rw [List.dropWhile_cons_of_pos (by simp), List.cons_append, List.dropWhile_cons_of_neg (by simp [hc0])]
  rw [e3]
  have e4 : (c :: r ++ "\n\n".toList).reverse.dropWhile (· = '\n') = (c :: r).reverse := by
    rw [List.reverse_append]
    have : "\n\n".toList.reverse = ['\n', '\n'] := by decide
    rw [this, List.cons_append, List.dropWhile_cons_of_pos (by simp), List.cons_append, List.dropWhile_cons_of_pos (by simp),
      List.nil_append]
    have hl : (c :: r).reverse.head? ≠ some '\n' := by rw [List.head?_reverse]; exact hl
    cases hrev : (c :: r).reverse with
    | nil => rfl
    | cons d q =>
      rw [hrev] at hl
      exact List.dropWhile_cons_of_neg (by simpa using hl)
  rw [e4, List.reverse_reverse]
  rfl

theorem no_newline {t : Text} (h : Tidy t) : '\n' ∉ t := fun hn => by
  have := (h.chars _ hn).2.2 (by decide)
  exact absurd this (by decide)

theorem single_of_none {t : Text} (h : '\n' ∉ t) : t.IsChain Single := by
  induction t with
  | nil => exact .nil
  | cons a t ih =>
    cases t with
    | nil => exact .singleton _
    | cons b t => exact .cons_cons (fun hab => h (by simp [hab.1])) (ih fun h' => h (List.mem_cons_of_mem _ h'))

theorem spaces_newline : ∀ {l : List Text}, (∀ u ∈ l, '\n' ∉ u) → '\n' ∉ spaces l
  | [], _ => by simp [spaces]
  | [a], h => by rw [spaces_single]; exact h a (by simp)
  | a :: b :: l, h => by
    rw [spaces_cons]
    have h1 := h a (by simp)
    have h2 := spaces_newline (l := b :: l) fun u hu => h u (List.mem_cons_of_mem _ hu)
    simp [h1, h2]

theorem tail_single {k : Nat} (hk : 0 < k) : ∀ {rest : List (List Text)}, (∀ l ∈ rest, ∀ u ∈ l, '\n' ∉ u) → ∀ {x : Text}, x ≠ [] →
    '\n' ∉ x → (x ++ rest.flatMap fun l => '\n' :: List.replicate k ' ' ++ spaces l).IsChain Single
  | [], _, x, _, hx => by
    rw [List.flatMap_nil, List.append_nil]
    exact single_of_none hx
  | l :: rest, h, x, hx0, hx => by
    have hn : '\n' ∉ List.replicate k ' ' ++ spaces l := by
      have := spaces_newline (h l (by simp))
      simp [this]
    have hne : List.replicate k ' ' ++ spaces l ≠ [] := by
      obtain ⟨j, rfl⟩ : ∃ j, k = j + 1 := ⟨k - 1, by omega⟩
      simp [List.replicate_succ]
    have ih := tail_single hk (fun m hm => h m (List.mem_cons_of_mem _ hm)) hne hn
    rw [List.flatMap_cons, List.cons_append, List.cons_append, List.isChain_append]
    refine ⟨single_of_none hx, ?_, ?_⟩
    · obtain ⟨c, q, hq⟩ := List.exists_cons_of_ne_nil hne
      rw [hq] at ih hn ⊢
      exact .cons_cons (fun hab => hn (by rw [hab.2]; simp)) ih
    · intro u hu v hv hab
      have := List.mem_of_getLast? hu
      rw [hab.1] at this
      exact hx this

theorem last_line {k : Nat} (hk : 0 < k) : ∀ {rest : List (List Text)} {x : Text}, x.getLast? ≠ some '\n' →
    (∀ l ∈ rest, ∀ u ∈ l, '\n' ∉ u) → (x ++ rest.flatMap fun l => '\n' :: List.replicate k ' ' ++ spaces l).getLast? ≠ some '\n'
  | [], x, hx, _ => by simpa using hx
  | l :: rest, x, hx, hu => by
    have hn : '\n' ∉ List.replicate k ' ' ++ spaces l := by
      have := spaces_newline (hu l (by simp))
      simp [this]
    have hne : List.replicate k ' ' ++ spaces l ≠ [] := by
      obtain ⟨j, rfl⟩ : ∃ j, k = j + 1 := ⟨k - 1, by omega⟩
      simp [List.replicate_succ]
    have := last_line hk (rest := rest) (x := (x ++ ['\n']) ++ (List.replicate k ' ' ++ spaces l)) (by
      rw [List.getLast?_append_of_ne_nil _ hne]
      exact fun h => hn (List.mem_of_getLast? h)) fun p hp => hu p (List.mem_cons_of_mem _ hp)
    simpa using this

theorem finish_laid {w : Int} {prog : Text} (hp : prog ≠ []) (hp' : '\n' ∉ prog) {us : List Text} (hu : ∀ u ∈ us, Tidy u) {t : Text}
    (h : Laid w prog us t) : ∃ t', t = t' ++ "\n\n".toList ∧ Layout w prog us (t' ++ "\n".toList) ∧
      finish [t] = t' ++ "\n".toList := by
  obtain ⟨k, first, rest, hk, -, rfl, h2, h3, h4⟩ := h
  have hu' : ∀ l ∈ first :: rest, ∀ u ∈ l, '\n' ∉ u := by
    intro l hl u hul
    refine no_newline (hu u ?_)
    rw [← h2]
    rcases List.mem_cons.1 hl with rfl | hl
    · exact List.mem_append_left _ hul
    · exact List.mem_append_right _ (List.mem_flatten.2 ⟨l, hl, hul⟩)
  have hx : '\n' ∉ pre ++ spaces (prog :: first) := by
    have : '\n' ∉ spaces (prog :: first) := spaces_newline (by
      intro u hul
      rcases List.mem_cons.1 hul with rfl | hul
      · exact hp'
      · exact hu' first (by simp) u hul)
    have h' : '\n' ∉ pre := by decide
    simp [this, h']
  have hx0 : pre ++ spaces (prog :: first) ≠ [] := by simp [pre]
  have hr : ∀ l ∈ rest, ∀ u ∈ l, '\n' ∉ u := fun l hl => hu' l (List.mem_cons_of_mem _ hl)
  refine ⟨pre ++ spaces (prog :: first) ++ (rest.flatMap fun l => '\n' :: List.replicate k ' ' ++ spaces l), by simp,
    ⟨k, first, rest, rfl, h2, h3, h4⟩, ?_⟩
  rw [← List.append_assoc pre]
  exact finish_single (tail_single hk hr hx0 hx) (by simp [pre]) (last_line hk (fun h => hx (List.mem_of_getLast? h)) hr)
    (by simp [pre])

theorem usageText_ok (columns : Int) {prog : Text} (hp : prog ≠ []) (hp' : '\n' ∉ prog) {l : List Shown} (hl : ∀ s ∈ l, Plain s) :
    ∃ t, usageText columns prog l = .ok t ∧ Layout (columns - 2) prog
      ((l.filter fun s => s.arg.names ≠ []).flatMap units ++ (l.filter fun s => s.arg.names = []).flatMap units) t := by
  obtain ⟨t, h1, h2⟩ := formatUsage_laid (columns - 2) hp hl
  obtain ⟨t', -, h3, h4⟩ := finish_laid hp hp' (fun u hu => by
    rcases List.mem_append.1 hu with hu | hu
    all_goals
      obtain ⟨s, hs, hu⟩ := List.mem_flatMap.1 hu
      exact tidy_units (hl s (List.mem_filter.1 hs).1) u hu) h2
  refine ⟨_, ?_, h3⟩
  unfold usageText
  simp only [bind, Except.bind]
  rw [h1]
  dsimp only
  rw [h4]

/-! ### Lines that are not empty -/

theorem lines_ne (t : Text) : lines t ≠ [] := by
  cases t with
  | nil => simp [lines]
  | cons c t =>
    unfold lines
    split
    · simp
    · split <;> simp

theorem lines_char {c : Char} (hc : c ≠ '\n') {t l : Text} {r : List Text} (h : lines t = l :: r) : lines (c :: t) = (c :: l) :: r := by
  rw [lines, if_neg hc, h]

theorem lines_newline (t : Text) : lines ('\n' :: t) = [] :: lines t := by rw [lines, if_pos rfl]

theorem lines_append : ∀ (a b : Text), lines (a ++ '\n' :: b) = lines a ++ lines b
  | [], b => by rw [List.nil_append, lines_newline]; rfl
  | c :: a, b => by
    have ih := lines_append a b
    by_cases hc : c = '\n'
    · subst hc
      rw [List.cons_append, lines_newline, lines_newline, ih]
      rfl
    · obtain ⟨l, r, h⟩ := List.exists_cons_of_ne_nil (lines_ne a)
      rw [h] at ih
      rw [List.cons_append, lines_char hc ih, lines_char hc h]
      rfl

theorem solid_append (a b : Text) : solid (a ++ '\n' :: b) = solid a ++ solid b := by
  unfold solid
  rw [lines_append, List.filter_append]

theorem solid_newline (t : Text) : solid ('\n' :: t) = solid t := by
  unfold solid
  rw [lines_newline, List.filter_cons_of_neg (by simp)]

theorem solid_nil : solid [] = [] := by decide

theorem solid_end (t : Text) : solid (t ++ ['\n']) = solid t := by
  have := solid_append t []
  rw [this, solid_nil, List.append_nil]

theorem lines_plain : ∀ {t : Text}, '\n' ∉ t → lines t = [t]
  | [], _ => rfl
  | c :: t, h => by
    rw [lines_char (fun e => h (by simp [e])) (lines_plain fun h' => h (List.mem_cons_of_mem _ h'))]

theorem solid_line {t : Text} (h : '\n' ∉ t) (h0 : t ≠ []) : solid t = [t] := by
  unfold solid
  rw [lines_plain h, List.filter_cons_of_pos (by simpa using h0)]
  rfl

theorem solid_longBreaks : ∀ (t : Text),
    (∀ k, solid (longBreaks k t) = solid t) ∧
    ∀ k < 2, ∀ l r l' r', lines (longBreaks k t) = l :: r → lines t = l' :: r' → l = l' ∧ r.filter (· ≠ []) = r'.filter (· ≠ [])
  | [] => ⟨fun k => by rw [longBreaks], fun k _ l r l' r' h h' => by
      rw [longBreaks] at h
      rw [h] at h'
      obtain ⟨rfl, rfl⟩ := List.cons.inj h'
      exact ⟨rfl, rfl⟩⟩
  | c :: t => by
    obtain ⟨i1, i2⟩ := solid_longBreaks t
    have key : ∀ k < 2, ∀ l r l' r', lines (longBreaks k (c :: t)) = l :: r → lines (c :: t) = l' :: r' →
        l = l' ∧ r.filter (· ≠ []) = r'.filter (· ≠ []) := by
      intro k hk l r l' r' h h'
      unfold longBreaks at h
      by_cases hc : c = '\n'
      · subst hc
        rw [if_pos rfl, if_pos hk, lines_newline] at h
        rw [lines_newline] at h'
        obtain ⟨rfl, rfl⟩ := List.cons.inj h
        obtain ⟨rfl, rfl⟩ := List.cons.inj h'
        exact ⟨rfl, i1 _⟩
      · rw [if_neg hc] at h
        obtain ⟨a, b, e⟩ := List.exists_cons_of_ne_nil (lines_ne (longBreaks 0 t))
        obtain ⟨a', b', e'⟩ := List.exists_cons_of_ne_nil (lines_ne t)
        rw [lines_char hc e] at h
        rw [lines_char hc e'] at h'
        obtain ⟨rfl, rfl⟩ := List.cons.inj h
        obtain ⟨rfl, rfl⟩ := List.cons.inj h'
        obtain ⟨h1, h2⟩ := i2 0 (by omega) _ _ _ _ e e'
        exact ⟨by rw [h1], h2⟩
    have small : ∀ k < 2, solid (longBreaks k (c :: t)) = solid (c :: t) := by
      intro k hk
      obtain ⟨a, b, e⟩ := List.exists_cons_of_ne_nil (lines_ne (longBreaks k (c :: t)))
      obtain ⟨a', b', e'⟩ := List.exists_cons_of_ne_nil (lines_ne (c :: t))
      obtain ⟨h1, h2⟩ := key k hk _ _ _ _ e e'
      unfold solid
      rw [e, e', h1, List.filter_cons, List.filter_cons, h2]
    refine ⟨fun k => ?_, key⟩
    by_cases hk : k < 2
    · exact small k hk
    · by_cases hc : c = '\n'
      · subst hc
        rw [longBreaks, if_pos rfl, if_neg hk, i1, solid_newline]
      · have := small 0 (by omega)
        rw [longBreaks, if_neg hc] at this ⊢
        exact this

theorem solid_dropWhile : ∀ t : Text, solid (t.dropWhile (· = '\n')) = solid t
  | [] => rfl
  | c :: t => by
    by_cases hc : c = '\n'
    · subst hc
      rw [List.dropWhile_cons_of_pos (by simp), solid_dropWhile t, solid_newline]
    · rw [List.dropWhile_cons_of_neg (by simpa using hc)]

theorem solid_dropEnd : ∀ t : Text, solid ((t.dropWhile (· = '\n')).reverse) = solid t.reverse
  | [] => rfl
  | c :: t => by
    by_cases hc : c = '\n'
    · subst hc
      rw [List.dropWhile_cons_of_pos (by simp), solid_dropEnd t, List.reverse_cons, solid_end]
    · rw [List.dropWhile_cons_of_neg (by simpa using hc)]

theorem solid_strip (t : Text) : solid (stripNewlines t) = solid t := by
  unfold stripNewlines
  rw [solid_dropEnd, List.reverse_reverse, solid_dropWhile]

/-- A text that is empty or ends with a newline. -/
def Ended (t : Text) : Prop := t = [] ∨ ∃ a, t = a ++ ['\n']

theorem solid_cat {t : Text} (h : Ended t) (b : Text) : solid (t ++ b) = solid t ++ solid b := by
  rcases h with rfl | ⟨a, rfl⟩
  · rfl
  · rw [List.append_assoc, List.singleton_append, solid_append, solid_end]

theorem solid_flatten : ∀ {l : List Text}, (∀ t ∈ l, Ended t) → solid l.flatten = l.flatMap solid
  | [], _ => rfl
  | t :: l, h => by
    rw [List.flatten_cons, solid_cat (h t (by simp)), solid_flatten fun x hx => h x (List.mem_cons_of_mem _ hx)]
    rfl

theorem solid_finish {l : List Text} (h : ∀ t ∈ l, Ended t) : solid (finish l) = l.flatMap solid := by
  rw [← solid_flatten h]
  unfold finish
  dsimp only
  by_cases h0 : l.flatten = []
  · rw [if_pos h0, if_pos rfl, h0]
  · rw [if_neg h0, if_neg (by simp), solid_end, solid_strip, (solid_longBreaks _).1, List.cons_append, solid_newline, solid_end]

end Verif.ArgHelp
