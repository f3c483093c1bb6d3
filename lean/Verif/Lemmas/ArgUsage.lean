import Verif.Lemmas.Base
import Verif.Spec.UsageHelp

/-! The usage text: its parts are found again, and laid out in lines. -/
namespace Verif.ArgHelp
open Verif Verif.Argparse Verif.Spec.UsageHelp
set_option linter.unusedSectionVars false

theorem spaces_single (a : Text) : spaces [a] = a := by simp [spaces, List.intercalate]

theorem spaces_cons (a b : Text) (l : List Text) : spaces (a :: b :: l) = a ++ ' ' :: spaces (b :: l) := by
  simp [spaces, List.intercalate]

theorem spaces_cons' (a : Text) {l : List Text} (h : l ≠ []) : spaces (a :: l) = a ++ ' ' :: spaces l := by
  obtain ⟨b, l, rfl⟩ := List.exists_cons_of_ne_nil h
  exact spaces_cons a b l

theorem spaces_append {l r : List Text} (hl : l ≠ []) (hr : r ≠ []) : spaces (l ++ r) = spaces l ++ ' ' :: spaces r := by
  induction l with
  | nil => exact absurd rfl hl
  | cons a l ih =>
    by_cases h : l = []
    · subst h
      rw [List.singleton_append, spaces_cons' a hr, spaces_single]
    · rw [List.cons_append, spaces_cons' a (by simp [hr]), ih h, spaces_cons' a h]
      simp

theorem spaces_flatMap {α : Type} {f : α → Text} {g : α → List Text} : ∀ {l : List α}, (∀ x ∈ l, g x ≠ [] ∧ f x = spaces (g x)) →
    spaces (l.map f) = spaces (l.flatMap g)
  | [], _ => rfl
  | [x], h => by
    have := h x (by simp)
    simp [spaces_single, this.2]
  | x :: y :: l, h => by
    have hx := h x (by simp)
    have ih := spaces_flatMap (l := y :: l) (fun z hz => h z (List.mem_cons_of_mem _ hz))
    rw [List.map_cons, spaces_cons' _ (by simp), ih,
      List.flatMap_cons (x := x), spaces_append hx.1 (by simp [(h y (by simp)).1]), hx.2]

/-! ### The parts -/

theorem label_eq {s : Shown} : label s = s.metavar.getD (if s.arg.names = [] then s.dest else upper s.dest) := rfl

theorem values_ne {x : Text} {k : Nargs} (h : k ≠ .num 0) : values x k ≠ [] := by
  cases k <;> simp [values]
  rintro rfl
  exact h rfl

theorem formatArgs_eq {s : Shown} {d : Text} (h : s.metavar.getD d = label s) :
    formatArgs s d = spaces (values (label s) s.arg.nargs) := by
  unfold formatArgs
  rw [h]
  cases s.arg.nargs <;> simp [values, spaces_single, spaces_cons, spaced, spaces]

theorem units_ne {s : Shown} (h : Plain s) : units s ≠ [] := by
  unfold units
  split
  · exact values_ne (h.positional (by assumption))
  · dsimp only
    split <;> simp

theorem usagePart_eq {s : Shown} (h : Plain s) : usagePart s = spaces (units s) := by
  unfold usagePart units
  rcases hn : s.arg.names with _ | ⟨n, l⟩
  · exact formatArgs_eq (by rw [label_eq, if_pos hn])
  · dsimp only
    have key : (if s.arg.nargs = .num 0 then n else n ++ ' ' :: formatArgs s (upper s.dest)) =
        spaces (n :: values (label s) s.arg.nargs) := by
      split
      · rename_i h0
        rw [h0]
        simp [values, spaces_single]
      · rename_i h0
        rw [spaces_cons' _ (values_ne h0), formatArgs_eq (by rw [label_eq, if_neg (by simp [hn])])]
    rw [key]
    split
    · rfl
    · rw [spaces_single]
      rfl

/-! ### Tidy texts -/

/-- What may stand next to each other. -/
def Next (a b : Char) : Prop := (a = '[' → b ≠ ' ' ∧ b ≠ ']') ∧ (b = ']' → a ≠ ' ')

structure Tidy (t : Text) : Prop where
  chain : t.IsChain Next
  chars : ∀ c ∈ t, c ≠ '(' ∧ c ≠ ')' ∧ (isSpace c = true → c = ' ')
  first : ∃ c r, t = c :: r ∧ c ≠ ' ' ∧ c ≠ ']'
  last : ∃ c r, t = r ++ [c] ∧ c ≠ ' ' ∧ c ≠ '['

theorem Tidy.space {a b : Text} (ha : Tidy a) (hb : Tidy b) : Tidy (a ++ ' ' :: b) := by
  obtain ⟨x, r, hx, h1, h2⟩ := ha.last
  obtain ⟨y, q, hy, h3, h4⟩ := hb.first
  refine ⟨?_, ?_, ?_, ?_⟩
  · rw [List.isChain_append]
    refine ⟨ha.chain, ?_, ?_⟩
    · have := hb.chain
      rw [hy] at this ⊢
      exact .cons_cons ⟨by simp, fun h => absurd h h4⟩ this
    · intro u hu v hv
      rw [hx] at hu
      simp at hu hv
      subst hu hv
      exact ⟨fun h => absurd h h2, by simp⟩
  · intro c hc
    rcases List.mem_append.1 hc with h | h
    · exact ha.chars c h
    · rcases List.mem_cons.1 h with rfl | h
      · exact ⟨by decide, by decide, fun _ => rfl⟩
      · exact hb.chars c h
  · obtain ⟨z, p, hz, h5⟩ := ha.first
    exact ⟨z, p ++ ' ' :: b, by rw [hz]; rfl, h5⟩
  · obtain ⟨z, p, hz, h5⟩ := hb.last
    exact ⟨z, a ++ ' ' :: p, by rw [hz]; simp, h5⟩

theorem Tidy.brackets {a : Text} (ha : Tidy a) : Tidy ('[' :: a ++ "]".toList) := by
  obtain ⟨x, r, hx, h1, h2⟩ := ha.last
  obtain ⟨y, q, hy, h3, h4⟩ := ha.first
  refine ⟨?_, ?_, ⟨'[', a ++ "]".toList, rfl, by decide, by decide⟩, ⟨']', '[' :: a, rfl, by decide, by decide⟩⟩
  · rw [List.isChain_append]
    refine ⟨?_, by simp, ?_⟩
    · have := ha.chain
      rw [hy] at this ⊢
      exact .cons_cons ⟨fun _ => ⟨h3, h4⟩, fun h => absurd h h4⟩ this
    · intro u hu v hv
      rw [hx] at hu
      rw [← List.cons_append, List.getLast?_concat] at hu
      simp at hu hv
      subst hu hv
      exact ⟨fun h => absurd h h2, fun _ => h1⟩
  · intro c hc
    simp only [List.cons_append, List.mem_cons, List.mem_append] at hc
    rcases hc with rfl | h | h
    · exact ⟨by decide, by decide, by decide⟩
    · exact ha.chars c h
    · simp at h
      subst h
      exact ⟨by decide, by decide, by decide⟩

theorem isSpace_iff {c : Char} : isSpace c = true ↔ c ∈ " \t\n\x0b\x0c\r".toList := by
  have : c.toNat = 9 ∨ c.toNat = 10 ∨ c.toNat = 11 ∨ c.toNat = 12 ∨ c.toNat = 13 ↔ 9 ≤ c.toNat ∧ c.toNat ≤ 13 := by omega
  have key : ∀ d : Char, c.toNat = d.toNat ↔ c = d := fun d => ⟨fun h => Char.toNat_inj.1 h, fun h => by rw [h]⟩
  unfold isSpace
  simp only [Bool.or_eq_true, decide_eq_true_eq, Bool.and_eq_true, ← this]
  have h1 := key '\t'; have h2 := key '\n'; have h3 := key '\x0b'; have h4 := key '\x0c'; have h5 := key '\r'
  rw [show ('\t' : Char).toNat = 9 from rfl] at h1
  rw [show ('\n' : Char).toNat = 10 from rfl] at h2
  rw [show ('\x0b' : Char).toNat = 11 from rfl] at h3
  rw [show ('\x0c' : Char).toNat = 12 from rfl] at h4
  rw [show ('\r' : Char).toNat = 13 from rfl] at h5
  rw [h1, h2, h3, h4, h5]
  simp

theorem plain_char {c : Char} (h : c ∉ "[]() \t\n\x0b\x0c\r".toList) :
    c ≠ '[' ∧ c ≠ ']' ∧ c ≠ '(' ∧ c ≠ ')' ∧ isSpace c = false ∧ c ≠ ' ' ∧ c ≠ '\n' := by
  have hs : isSpace c = false := by
    rw [Bool.eq_false_iff, ne_eq, isSpace_iff]
    intro hc
    apply h
    simp at hc ⊢
    tauto
  simp at h
  tauto

theorem tidy_plain {t : Text} (h : PlainText t) : Tidy t := by
  have hc := fun c hc => plain_char (h.2 c hc)
  refine ⟨?_, ?_, ?_, ?_⟩
  · have : ∀ t : Text, (∀ c ∈ t, c ≠ '[' ∧ c ≠ ']') → t.IsChain Next := by
      intro t
      induction t with
      | nil => intro; exact .nil
      | cons a t ih =>
        intro h
        cases t with
        | nil => exact .singleton _
        | cons b t =>
          exact .cons_cons ⟨fun e => absurd e (h a (by simp)).1, fun e => absurd e (h b (by simp)).2⟩
            (ih fun c hc => h c (List.mem_cons_of_mem _ hc))
    exact this t fun c h => ⟨(hc c h).1, (hc c h).2.1⟩
  · intro c h
    obtain ⟨h1, h2, h3, h4, h5, h6, h7⟩ := hc c h
    exact ⟨h3, h4, by simp [h5]⟩
  · obtain ⟨c, r, rfl⟩ := List.exists_cons_of_ne_nil h.1
    exact ⟨c, r, rfl, (hc c (by simp)).2.2.2.2.2.1, (hc c (by simp)).2.1⟩
  · refine ⟨t.getLast h.1, t.dropLast, (List.dropLast_append_getLast h.1).symm, ?_, ?_⟩
    · exact (hc _ (List.getLast_mem h.1)).2.2.2.2.2.1
    · exact (hc _ (List.getLast_mem h.1)).1

theorem tidy_dots : Tidy "...".toList := tidy_plain ⟨by decide, by decide⟩

theorem tidy_values {x : Text} (hx : PlainText x) (k : Nargs) : ∀ u ∈ values x k, Tidy u := by
  have hx := tidy_plain hx
  intro u hu
  cases k <;> simp only [values, List.mem_singleton, List.mem_cons, List.not_mem_nil, or_false, List.mem_replicate] at hu
  · rw [hu]; exact hx
  · rw [hu]; exact hx.brackets
  · rw [hu]
    have := (hx.space (hx.space tidy_dots).brackets).brackets
    simpa using this
  · rcases hu with rfl | rfl
    · exact hx
    · have := (hx.space tidy_dots).brackets
      simpa using this
  · rw [hu.2]; exact hx

theorem tidy_spaces : ∀ {l : List Text}, l ≠ [] → (∀ u ∈ l, Tidy u) → Tidy (spaces l)
  | [], h, _ => absurd rfl h
  | [a], _, h => by rw [spaces_single]; exact h a (by simp)
  | a :: b :: l, _, h => by
    rw [spaces_cons]
    exact (h a (by simp)).space (tidy_spaces (by simp) fun u hu => h u (List.mem_cons_of_mem _ hu))

theorem tidy_units {s : Shown} (h : Plain s) : ∀ u ∈ units s, Tidy u := by
  have hv : ∀ u ∈ values (label s) s.arg.nargs, Tidy u := by
    by_cases h0 : s.arg.nargs = .num 0
    · rw [h0]; simp [values]
    · exact tidy_values (h.label h0) _
  intro u hu
  unfold units at hu
  split at hu
  · exact hv u hu
  · rename_i n l hn
    have hl : ∀ u ∈ n :: values (label s) s.arg.nargs, Tidy u := by
      intro u hu
      rcases List.mem_cons.1 hu with rfl | hu
      · exact tidy_plain (h.names _ (by rw [hn]; simp))
      · exact hv u hu
    dsimp only at hu
    split at hu
    · exact hl u hu
    · rw [List.mem_singleton] at hu
      rw [hu]
      exact (tidy_spaces (by simp) hl).brackets

/-! ### Nothing is cleaned up -/

theorem subOpen_tidy : ∀ {t : Text}, t.IsChain Next → (∀ c ∈ t, c ≠ '(') → subOpen t = t
  | [], _, _ => rfl
  | c :: t, h, hc => by
    have ih := subOpen_tidy (t := t) (by cases h <;> simp_all) fun c h => hc c (List.mem_cons_of_mem _ h)
    unfold subOpen
    by_cases ho : opening c = true
    · have : c = '[' := by
        have := hc c (by simp)
        simp [opening, this] at ho
        exact ho
      subst this
      rw [if_pos ho]
      split
      · rename_i t'
        cases h with
        | cons_cons h1 _ => exact absurd rfl (h1.1 rfl).1
      · rw [ih]
    · rw [if_neg ho, ih]

theorem subClose_tidy : ∀ {t : Text}, t.IsChain Next → (∀ c ∈ t, c ≠ ')') → subClose t = t
  | [], _, _ => rfl
  | [c], _, _ => by
    unfold subClose
    split <;> simp_all [subClose]
  | a :: c :: t, h, hc => by
    have h1 : Next a c := by cases h; assumption
    have h2 : (c :: t).IsChain Next := by cases h; assumption
    have ih := subClose_tidy h2 fun c h => hc c (List.mem_cons_of_mem _ h)
    unfold subClose
    split
    · simp_all
    · rename_i c' t' heq
      obtain ⟨h0, heq⟩ := List.cons.inj heq
      obtain ⟨rfl, rfl⟩ := List.cons.inj heq
      have h0 := h0.symm
      subst h0
      have : closing c = false := by
        have h3 := hc c (by simp)
        have h4 : c ≠ ']' := fun e => h1.2 e rfl
        simp [closing, h3, h4]
      rw [this, ih]
      rfl
    · rename_i heq
      obtain ⟨rfl, rfl⟩ := List.cons.inj heq
      rw [ih]

theorem subEmpty_tidy : ∀ (k : Nat) {t : Text}, t.IsChain Next → (∀ c ∈ t, c ≠ '(' ∧ c ≠ ')') → subEmpty k t = t
  | 0, _, _, _ => rfl
  | _ + 1, [], _, _ => rfl
  | k + 1, c :: t, h, hc => by
    have ih := subEmpty_tidy k (t := t) (by cases h <;> simp_all) fun c h => hc c (List.mem_cons_of_mem _ h)
    unfold subEmpty
    split
    · rename_i ho
      have : c = '[' := by
        have := (hc c (by simp)).1
        simp [opening, this] at ho
        exact ho
      subst this
      cases t with
      | nil => simp [ih]
      | cons d t =>
        have h1 : Next '[' d := by cases h; assumption
        rw [List.dropWhile_cons_of_neg (by simp [(h1.1 rfl).1])]
        dsimp only
        have : closing d = false := by simp [closing, (h1.1 rfl).2, (hc d (by simp)).2]
        rw [this, ih]
        rfl
    · rw [ih]

theorem subParens_none : ∀ (k : Nat) {t : Text}, (∀ c ∈ t, c ≠ '(') → subParens k t = t
  | 0, _, _ => rfl
  | _ + 1, [], _ => rfl
  | k + 1, c :: t, h => by
    unfold subParens
    rw [if_neg (h c (by simp)), subParens_none k fun c hc => h c (List.mem_cons_of_mem _ hc)]

theorem strip_tidy {t : Text} (h : Tidy t) : strip t = t := by
  obtain ⟨c, r, hx, h1, -⟩ := h.first
  obtain ⟨d, q, hy, h2, -⟩ := h.last
  have e1 : isSpace c = false := by
    rw [Bool.eq_false_iff]
    exact fun e => h1 ((h.chars c (by rw [hx]; simp)).2.2 e)
  have e2 : isSpace d = false := by
    rw [Bool.eq_false_iff]
    exact fun e => h2 ((h.chars d (by rw [hy]; simp)).2.2 e)
  unfold strip
  have : t.dropWhile isSpace = t := by rw [hx]; exact List.dropWhile_cons_of_neg (by simp [e1])
  rw [this]
  have : t.reverse.dropWhile isSpace = t.reverse := by
    rw [hy, List.reverse_append]
    exact List.dropWhile_cons_of_neg (by simp [e2])
  rw [this, List.reverse_reverse]

theorem actionsUsage_eq {l : List Shown} (h : ∀ s ∈ l, Plain s) : actionsUsage l = spaces (l.flatMap units) := by
  have hl : spaces (l.map usagePart) = spaces (l.flatMap units) :=
    spaces_flatMap fun s hs => ⟨units_ne (h s hs), usagePart_eq (h s hs)⟩
  unfold actionsUsage
  rw [show spaced (l.map usagePart) = spaces (l.map usagePart) from rfl, hl]
  by_cases he : l.flatMap units = []
  · rw [he]
    rfl
  · have T : Tidy (spaces (l.flatMap units)) := tidy_spaces he fun u hu => by
      obtain ⟨s, hs, hu⟩ := List.mem_flatMap.1 hu
      exact tidy_units (h s hs) u hu
    dsimp only
    rw [subOpen_tidy T.chain fun c hc => (T.chars c hc).1, subClose_tidy T.chain fun c hc => (T.chars c hc).2.1,
      subEmpty_tidy _ T.chain fun c hc => ⟨(T.chars c hc).1, (T.chars c hc).2.1⟩, subParens_none _ fun c hc => (T.chars c hc).1,
      strip_tidy T]

/-! ### Finding the parts -/

inductive IsUnit : Text → Prop
  | word (u : Text) : PlainText u → IsUnit u
  | bracket (x : Text) (k : Nat) : (∀ c ∈ x, c ≠ ']' ∧ c ≠ '\n') → IsUnit ('[' :: x ++ List.replicate (k + 1) ']')

theorem IsUnit.ne {u : Text} (h : IsUnit u) : u ≠ [] := by
  cases h with
  | word _ h => exact h.1
  | bracket => simp

theorem open_plain {x : Text} (h : PlainText x) : ∀ c ∈ x, c ≠ ']' ∧ c ≠ '\n' := fun c hc =>
  ⟨(plain_char (h.2 c hc)).2.1, (plain_char (h.2 c hc)).2.2.2.2.2.2⟩

theorem unit_values {x : Text} (hx : PlainText x) (k : Nargs) : ∀ u ∈ values x k, IsUnit u := by
  have ho := open_plain hx
  intro u hu
  cases k <;> simp only [values, List.mem_singleton, List.mem_cons, List.not_mem_nil, or_false, List.mem_replicate] at hu
  · rw [hu]; exact .word _ hx
  · rw [hu]; exact .bracket x 0 ho
  · rw [hu]
    have := IsUnit.bracket (x ++ " [".toList ++ x ++ " ...".toList) 1 (by
      intro c hc
      simp only [List.mem_append] at hc
      rcases hc with ((hc | hc) | hc) | hc
      · exact ho c hc
      · simp at hc; rcases hc with rfl | rfl <;> decide
      · exact ho c hc
      · simp at hc; rcases hc with rfl | rfl <;> decide)
    simpa using this
  · rcases hu with rfl | rfl
    · exact .word _ hx
    · have := IsUnit.bracket (x ++ " ...".toList) 0 (by
        intro c hc
        simp only [List.mem_append] at hc
        rcases hc with hc | hc
        · exact ho c hc
        · simp at hc; rcases hc with rfl | rfl <;> decide)
      simpa using this
  · rw [hu.2]; exact .word _ hx

/-- What stands in the brackets of an option. -/
theorem inner {n : Text} (hn : PlainText n) {x : Text} {k : Nargs} (hx : k ≠ .num 0 → PlainText x) :
    IsUnit ('[' :: spaces (n :: values x k) ++ "]".toList) := by
  have no := open_plain hn
  by_cases h0 : k = .num 0
  · subst h0
    have := IsUnit.bracket n 0 no
    simpa [values, spaces_single] using this
  · have hx' := hx h0
    have ho := open_plain hx'
    cases k with
    | one =>
      have := IsUnit.bracket (n ++ ' ' :: x) 0 (by
        intro c hc
        simp only [List.mem_append, List.mem_cons] at hc
        rcases hc with hc | rfl | hc
        · exact no c hc
        · decide
        · exact ho c hc)
      simpa [values, spaces_single, spaces_cons] using this
    | opt =>
      have := IsUnit.bracket (n ++ " [".toList ++ x) 1 (by
        intro c hc
        simp only [List.mem_append] at hc
        rcases hc with (hc | hc) | hc
        · exact no c hc
        · simp at hc; rcases hc with rfl | rfl <;> decide
        · exact ho c hc)
      simpa [values, spaces_single, spaces_cons] using this
    | star =>
      have := IsUnit.bracket (n ++ " [".toList ++ x ++ " [".toList ++ x ++ " ...".toList) 2 (by
        intro c hc
        simp only [List.mem_append] at hc
        rcases hc with ((((hc | hc) | hc) | hc) | hc) | hc
        · exact no c hc
        · simp at hc; rcases hc with rfl | rfl <;> decide
        · exact ho c hc
        · simp at hc; rcases hc with rfl | rfl <;> decide
        · exact ho c hc
        · simp at hc; rcases hc with rfl | rfl <;> decide)
      simpa [values, spaces_single, spaces_cons] using this
    | plus =>
      have := IsUnit.bracket (n ++ " ".toList ++ x ++ " [".toList ++ x ++ " ...".toList) 1 (by
        intro c hc
        simp only [List.mem_append] at hc
        rcases hc with ((((hc | hc) | hc) | hc) | hc) | hc
        · exact no c hc
        · simp at hc; rw [hc]; decide
        · exact ho c hc
        · simp at hc; rcases hc with rfl | rfl <;> decide
        · exact ho c hc
        · simp at hc; rcases hc with rfl | rfl <;> decide)
      simpa [values, spaces_single, spaces_cons] using this
    | num m =>
      refine .bracket (spaces (n :: List.replicate m x)) 0 ?_
      have : ∀ l : List Text, (∀ u ∈ l, PlainText u) → ∀ c ∈ spaces l, c ≠ ']' ∧ c ≠ '\n' := by
        intro l
        induction l with
        | nil => intro _ c hc; simp [spaces] at hc
        | cons a l ih =>
          intro h c hc
          by_cases hl : l = []
          · subst hl
            rw [spaces_single] at hc
            exact open_plain (h a (by simp)) c hc
          · rw [spaces_cons' a hl] at hc
            simp only [List.mem_append, List.mem_cons] at hc
            rcases hc with hc | rfl | hc
            · exact open_plain (h a (by simp)) c hc
            · decide
            · exact ih (fun u hu => h u (List.mem_cons_of_mem _ hu)) c hc
      refine this _ fun u hu => ?_
      rcases List.mem_cons.1 hu with rfl | hu
      · exact hn
      · rw [(List.mem_replicate.1 hu).2]; exact hx'

theorem unit_units {s : Shown} (h : Plain s) : ∀ u ∈ units s, IsUnit u := by
  have hv : ∀ u ∈ values (label s) s.arg.nargs, IsUnit u := by
    by_cases h0 : s.arg.nargs = .num 0
    · rw [h0]; simp [values]
    · exact unit_values (h.label h0) _
  intro u hu
  unfold units at hu
  split at hu
  · exact hv u hu
  · rename_i n l hn
    have hn : PlainText n := h.names _ (by rw [hn]; simp)
    dsimp only at hu
    split at hu
    · rcases List.mem_cons.1 hu with rfl | hu
      · exact .word _ hn
      · exact hv u hu
    · rw [List.mem_singleton] at hu
      rw [hu]
      exact inner hn h.label

theorem takeWhile_append_all {p : Char → Bool} {x r : Text} (hx : ∀ c ∈ x, p c = true) (hr : ∀ c, r.head? = some c → p c = false) :
    (x ++ r).takeWhile p = x ∧ (x ++ r).dropWhile p = r := by
  induction x with
  | nil =>
    cases r with
    | nil => simp
    | cons c r => simp [hr c rfl]
  | cons a x ih =>
    have := ih fun c hc => hx c (List.mem_cons_of_mem _ hc)
    simp [hx a (by simp), this]

theorem findParts_unit {u : Text} (hu : IsUnit u) {r : Text} (hr : ∀ c, r.head? = some c → c = ' ') (k : Nat) :
    findParts (k + 1) (u ++ r) = u :: findParts k r := by
  cases hu with
  | word _ h =>
    obtain ⟨c, x, rfl⟩ := List.exists_cons_of_ne_nil h.1
    obtain ⟨h1, h2, h3, h4, h5, -⟩ := plain_char (h.2 c (by simp))
    rw [List.cons_append, findParts, if_neg (by simp [h5]), if_neg h3, if_neg h1]
    dsimp only
    obtain ⟨e1, e2⟩ := takeWhile_append_all (p := fun c => decide (¬ isSpace c = true)) (x := x) (r := r)
      (fun c hc => by simp [(plain_char (h.2 c (List.mem_cons_of_mem _ hc))).2.2.2.2.1]) (fun c hc => by rw [hr c hc]; decide)
    rw [e1, e2]
  | bracket x m h =>
    rw [List.cons_append, List.cons_append, findParts, if_neg (by decide), if_neg (by decide), if_pos rfl]
    have hb : bracketed ']' (x ++ List.replicate (m + 1) ']' ++ r) = some (x ++ List.replicate (m + 1) ']', r) := by
      unfold bracketed
      obtain ⟨e1, e2⟩ := takeWhile_append_all (p := fun c => decide (c ≠ ']')) (x := x) (r := List.replicate (m + 1) ']' ++ r)
        (fun c hc => by simp [(h c hc).1]) (fun c hc => by simp [List.replicate_succ] at hc; simp [← hc])
      obtain ⟨e3, e4⟩ := takeWhile_append_all (p := fun c => decide (c = ']')) (x := List.replicate (m + 1) ']') (r := r)
        (fun c hc => by simp [(List.mem_replicate.1 hc).2]) (fun c hc => by rw [hr c hc]; decide)
      rw [List.append_assoc, e1, e2]
      dsimp only
      rw [e3, e4, if_neg]
      intro hh
      simp only [Bool.or_eq_true, decide_eq_true_eq] at hh
      rcases hh with hh | hh
      · simp [List.replicate_succ] at hh
      · exact (h _ hh).2 rfl
    rw [hb]

theorem findParts_spaces : ∀ {us : List Text}, (∀ u ∈ us, IsUnit u) → ∀ k, (spaces us).length ≤ k → findParts k (spaces us) = us
  | [], _, k, _ => by cases k <;> rfl
  | [u], h, k, hk => by
    rw [spaces_single] at hk ⊢
    have hu := h u (by simp)
    have := List.length_pos_iff.2 hu.ne
    obtain ⟨k, rfl⟩ : ∃ j, k = j + 1 := ⟨k - 1, by omega⟩
    have := findParts_unit hu (r := []) (by simp) k
    rw [List.append_nil] at this
    rw [this]
    cases k <;> rfl
  | u :: v :: us, h, k, hk => by
    have hu := h u (by simp)
    have hp := List.length_pos_iff.2 hu.ne
    rw [spaces_cons] at hk ⊢
    simp only [List.length_append, List.length_cons] at hk
    obtain ⟨k, rfl⟩ : ∃ j, k = j + 2 := ⟨k - 2, by omega⟩
    rw [findParts_unit hu (by simp) (k + 1), findParts, if_pos (by decide),
      findParts_spaces (fun w hw => h w (List.mem_cons_of_mem _ hw)) k (by omega)]

/-! ### Lines -/

/-- The length that `get_lines` counts. -/
def count (line : List Text) : Int := (line.map fun p => (p.length : Int) + 1).sum

theorem count_spaces : ∀ {l : List Text}, l ≠ [] → ((spaces l).length : Int) = count l - 1
  | [], h => absurd rfl h
  | [a], _ => by simp [spaces_single, count]
  | a :: b :: l, _ => by
    have := count_spaces (l := b :: l) (by simp)
    rw [spaces_cons, List.length_append, List.length_cons]
    simp only [count, List.map_cons, List.sum_cons] at this ⊢
    omega

theorem count_snoc (l : List Text) (p : Text) : count (l ++ [p]) = count l + (p.length + 1) := by
  simp [count]

theorem getLines_line (w : Int) (indent : Text) : ∀ (ps line : List Text) (off : Int), line ≠ [] →
    ∃ (f : List Text) (rest : List (List Text)), getLines w indent ps line (off - 1 + count line) = (indent ++ spaces (line ++ f)) :: rest.map (indent ++ spaces ·) ∧
      f ++ rest.flatten = ps ∧ (f = [] ∨ off + ((spaces (line ++ f)).length : Int) ≤ w) ∧
      (∀ l ∈ rest, l ≠ [] ∧ (l.length ≤ 1 ∨ (indent.length + (spaces l).length : Int) ≤ w))
  | [], line, off, h => ⟨[], [], by simp [getLines, h, spaced, spaces], rfl, .inl rfl, by simp⟩
  | p :: ps, line, off, h => by
    unfold getLines
    split
    · obtain ⟨f, rest, e1, e2, e3, e4⟩ := getLines_line w indent ps [p] indent.length (by simp)
      refine ⟨[], ([p] ++ f) :: rest, ?_, ?_, .inl rfl, ?_⟩
      · rw [show (indent.length : Int) - 1 + ((p.length : Int) + 1) = indent.length - 1 + count [p] by simp [count], e1]
        simp [spaced, spaces]
      · simp [e2]
      · intro l hl
        rcases List.mem_cons.1 hl with rfl | hl
        · refine ⟨by simp, ?_⟩
          rcases e3 with rfl | e3
          · exact .inl (by simp)
          · exact .inr e3
        · exact e4 l hl
    · rename_i hw
      obtain ⟨f, rest, e1, e2, e3, e4⟩ := getLines_line w indent ps (line ++ [p]) off (by simp)
      refine ⟨p :: f, rest, ?_, ?_, .inr ?_, e4⟩
      · rw [show off - 1 + count line + ((p.length : Int) + 1) = off - 1 + count (line ++ [p]) by rw [count_snoc]; omega, e1]
        simp
      · simp [e2]
      · rcases e3 with rfl | e3
        · rw [count_spaces (by simp), count_snoc]
          omega
        · simpa using e3

/-- The lines of parts that start lines of their own. -/
theorem getLines_fresh (w : Int) (indent : Text) (ps : List Text) :
    ∃ rest : List (List Text), getLines w indent ps [] ((indent.length : Int) - 1) = rest.map (indent ++ spaces ·) ∧ rest.flatten = ps ∧
      (∀ l ∈ rest, l.length ≤ 1 ∨ (indent.length + (spaces l).length : Int) ≤ w) ∧ (rest ≠ [] → rest.getLast? ≠ some []) := by
  cases ps with
  | nil => exact ⟨[], rfl, rfl, by simp, by simp⟩
  | cons p ps =>
    obtain ⟨f, rest, e1, e2, e3, e4⟩ := getLines_line w indent ps [p] indent.length (by simp)
    rw [show (indent.length : Int) - 1 + count [p] = indent.length - 1 + ((p.length : Int) + 1) by simp [count]] at e1
    have hlast : (([p] ++ f) :: rest).getLast? ≠ some [] := by
      intro h
      rcases List.mem_cons.1 (List.mem_of_getLast? h) with h | h
      · simp at h
      · exact (e4 _ h).1 rfl
    have hw : ∀ l ∈ ([p] ++ f) :: rest, l.length ≤ 1 ∨ (indent.length + (spaces l).length : Int) ≤ w := by
      intro l hl
      rcases List.mem_cons.1 hl with rfl | hl
      · rcases e3 with rfl | e3
        · exact .inl (by simp)
        · exact .inr e3
      · exact (e4 l hl).2
    unfold getLines
    split
    · refine ⟨[] :: ([p] ++ f) :: rest, ?_, ?_, ?_, ?_⟩
      · rw [e1]
        simp [spaced, spaces]
      · simp [e2]
      · intro l hl
        rcases List.mem_cons.1 hl with rfl | hl
        · exact .inl (by simp)
        · exact hw l hl
      · intro _
        rw [List.getLast?_cons_cons]
        exact hlast
    · refine ⟨([p] ++ f) :: rest, ?_, ?_, hw, fun _ => hlast⟩
      · rw [List.nil_append, e1]
        simp
      · simp [e2]

/-! ### The whole text -/

theorem intercalate_lines : ∀ (a : Text) (l : List Text), ['\n'].intercalate (a :: l) = a ++ l.flatMap ('\n' :: ·)
  | a, [] => by simp [List.intercalate]
  | a, b :: l => by
    have := intercalate_lines b l
    simp only [List.intercalate] at this ⊢
    simp [this]

/-- What `formatUsage` gives, with the newlines that come after it. -/
def Laid (w : Int) (prog : Text) (us : List Text) (t : Text) : Prop :=
  ∃ (k : Nat) (first : List Text) (rest : List (List Text)), 0 < k ∧ (rest ≠ [] → rest.getLast? ≠ some []) ∧
    t = pre ++ (spaces (prog :: first) ++ (rest.flatMap fun l => '\n' :: List.replicate k ' ' ++ spaces l)) ++ "\n\n".toList ∧
    first ++ rest.flatten = us ∧
    (first = [] ∨ ((pre ++ spaces (prog :: first)).length : Int) ≤ w) ∧
    ∀ l ∈ rest, l.length ≤ 1 ∨ ((k + (spaces l).length : Nat) : Int) ≤ w

theorem getLinesAfter_eq {w : Int} {prog : Text} {ps : List Text} (h : 4 * (pre.length + prog.length : Int) ≤ 3 * w) :
    ∃ (f : List Text) (rest : List (List Text)),
      getLinesAfter w (prog :: ps) (List.replicate (pre.length + prog.length + 1) ' ') =
        .ok (spaces (prog :: f) :: rest.map (List.replicate (pre.length + prog.length + 1) ' ' ++ spaces ·)) ∧
      f ++ rest.flatten = ps ∧ (f = [] ∨ ((pre ++ spaces (prog :: f)).length : Int) ≤ w) ∧
      (∀ l ∈ rest, l ≠ [] ∧ (l.length ≤ 1 ∨ ((pre.length + prog.length + 1 + (spaces l).length : Nat) : Int) ≤ w)) := by
  obtain ⟨f, rest, e1, e2, e3, e4⟩ := getLines_line w (List.replicate (pre.length + prog.length + 1) ' ') ps [prog] pre.length
    (by simp)
  refine ⟨f, rest, ?_, e2, ?_, ?_⟩
  · unfold getLinesAfter getLines
    rw [if_neg (by omega), List.nil_append,
      show (pre.length : Int) - 1 + ((prog.length : Int) + 1) = pre.length - 1 + count [prog] by simp [count], e1]
    simp
  · rcases e3 with rfl | e3
    · exact .inl rfl
    · right
      rw [List.length_append]
      simpa using e3
  · intro l hl
    have := e4 l hl
    refine ⟨this.1, this.2.imp_right fun h => ?_⟩
    rw [List.length_replicate] at h
    push_cast at h ⊢
    exact h

theorem formatUsage_laid (w : Int) {prog : Text} (hprog : prog ≠ []) {l : List Shown} (hl : ∀ s ∈ l, Plain s) :
    ∃ t, formatUsage w prog l = .ok t ∧
      Laid w prog ((l.filter fun s => s.arg.names ≠ []).flatMap units ++ (l.filter fun s => s.arg.names = []).flatMap units) t := by
  have ho : ∀ s ∈ l.filter fun s => s.arg.names ≠ [], Plain s := fun s hs => hl s (List.mem_filter.1 hs).1
  have hp : ∀ s ∈ l.filter fun s => s.arg.names = [], Plain s := fun s hs => hl s (List.mem_filter.1 hs).1
  by_cases h0 : l = []
  · subst h0
    exact ⟨_, rfl, 1, [], [], by omega, by simp, by simp [spaces_single], rfl, .inl rfl, by simp⟩
  unfold formatUsage
  simp only [bind, Except.bind]
  rw [if_neg h0]
  have hcat : (l.filter fun s => s.arg.names ≠ []) ++ (l.filter fun s => s.arg.names = []) ≠ [] := by
    obtain ⟨s, r, rfl⟩ := List.exists_cons_of_ne_nil h0
    intro h
    have h := List.append_eq_nil_iff.1 h
    rw [List.filter_eq_nil_iff, List.filter_eq_nil_iff] at h
    have h1 := h.1 s (by simp)
    have h2 := h.2 s (by simp)
    simp_all
  generalize (l.filter fun s => s.arg.names ≠ []) = opts at *
  generalize (l.filter fun s => s.arg.names = []) = pos at *
  have hall : ∀ s ∈ opts ++ pos, Plain s := fun s hs => (List.mem_append.1 hs).elim (ho s) (hp s)
  have ne_units : ∀ {m : List Shown}, (∀ s ∈ m, Plain s) → m ≠ [] → m.flatMap units ≠ [] := by
    intro m hm hne
    obtain ⟨s, r, rfl⟩ := List.exists_cons_of_ne_nil hne
    simp [units_ne (hm s (by simp))]
  have ne_usage : actionsUsage (opts ++ pos) ≠ [] := by
    rw [actionsUsage_eq hall]
    obtain ⟨c, r, h, -⟩ := (tidy_spaces (ne_units hall hcat) fun u hu => by
      obtain ⟨s, hs, hu⟩ := List.mem_flatMap.1 hu
      exact tidy_units (hall s hs) u hu).first
    rw [h]
    simp
  have hfull : spaced ([prog, actionsUsage (opts ++ pos)].filter (· ≠ [])) = spaces (prog :: (opts ++ pos).flatMap units) := by
    rw [List.filter_cons_of_pos (by simp [hprog]), List.filter_cons_of_pos (by simp [ne_usage]), List.filter_nil,
      actionsUsage_eq hall, spaces_cons' _ (ne_units hall hcat)]
    exact (spaces_cons _ _ _).trans (by rw [spaces_single])
  rw [hfull]
  have hparts : ∀ {m : List Shown}, (∀ s ∈ m, Plain s) → findParts (actionsUsage m).length (actionsUsage m) = m.flatMap units := by
    intro m hm
    rw [actionsUsage_eq hm]
    exact findParts_spaces (fun u hu => by
      obtain ⟨s, hs, hu⟩ := List.mem_flatMap.1 hu
      exact unit_units (hm s hs) u hu) _ le_rfl
  split
  · rename_i hw
    refine ⟨_, rfl, 1, (opts ++ pos).flatMap units, [], by omega, by simp, by simp, by simp, .inr ?_, by simp⟩
    rw [List.length_append]
    push_cast
    exact hw
  · rw [hparts ho, hparts hp, actionsUsage_eq ho, actionsUsage_eq hp, if_neg (by exact fun h => h rfl), if_neg (by exact fun h => h rfl)]
    split
    · rename_i hshort
      by_cases hne : opts.flatMap units = []
      · have hpne : pos.flatMap units ≠ [] := by
          intro h
          have := ne_units hall hcat
          rw [List.flatMap_append, hne, h] at this
          exact this rfl
        rw [if_neg (by simpa using hne), if_pos (by exact hpne)]
        obtain ⟨f, rest, e1, e2, e3, e4⟩ := getLinesAfter_eq (ps := pos.flatMap units) hshort
        rw [e1]
        dsimp only
        refine ⟨_, rfl, pre.length + prog.length + 1, f, rest, by omega, ?_, ?_, by rw [e2, hne]; rfl, e3, fun l hl => (e4 l hl).2⟩
        · intro h1 h2
          exact (e4 _ (List.mem_of_getLast? h2)).1 rfl
        · rw [intercalate_lines, List.flatMap_map]
          simp
      · rw [if_pos (by exact hne)]
        obtain ⟨f, rest, e1, e2, e3, e4⟩ := getLinesAfter_eq (ps := opts.flatMap units) hshort
        obtain ⟨r2, k1, k2, k3, k4⟩ := getLines_fresh w (List.replicate (pre.length + prog.length + 1) ' ') (pos.flatMap units)
        rw [e1, k1]
        dsimp only
        refine ⟨_, rfl, pre.length + prog.length + 1, f, rest ++ r2, by omega, ?_, ?_, ?_, e3, ?_⟩
        · intro h1 h2
          by_cases hr : r2 = []
          · subst hr
            rw [List.append_nil] at h2
            exact (e4 _ (List.mem_of_getLast? h2)).1 rfl
          · rw [List.getLast?_append_of_ne_nil _ hr] at h2
            exact k4 hr h2
        · rw [List.cons_append, intercalate_lines, ← List.map_append, List.flatMap_map]
          simp
        · rw [List.flatten_append, k2, ← List.append_assoc, e2]
        · intro l hl
          rcases List.mem_append.1 hl with hl | hl
          · exact (e4 l hl).2
          · refine (k3 l hl).imp_right fun h => ?_
            rw [List.length_replicate] at h
            push_cast at h ⊢
            exact h
    · have fin : ∀ rest : List (List Text), rest.flatten = opts.flatMap units ++ pos.flatMap units →
          (∀ l ∈ rest, l.length ≤ 1 ∨ ((List.replicate pre.length ' ').length + (spaces l).length : Int) ≤ w) →
          (rest ≠ [] → rest.getLast? ≠ some []) →
          Laid w prog (opts.flatMap units ++ pos.flatMap units)
            (pre ++ ['\n'].intercalate (prog :: rest.map (List.replicate pre.length ' ' ++ spaces ·)) ++ "\n\n".toList) := by
        intro rest h1 h2 h3
        refine ⟨pre.length, [], rest, by decide, h3, ?_, h1, .inl rfl, ?_⟩
        · rw [intercalate_lines, List.flatMap_map, spaces_single]
          simp
        · intro l hl
          refine (h2 l hl).imp_right fun h => ?_
          rw [List.length_replicate] at h
          push_cast at h ⊢
          exact h
      obtain ⟨r1, k1, k2, k3, k4⟩ := getLines_fresh w (List.replicate pre.length ' ') (opts.flatMap units)
      obtain ⟨r2, j1, j2, j3, j4⟩ := getLines_fresh w (List.replicate pre.length ' ') (pos.flatMap units)
      obtain ⟨r3, i1, i2, i3, i4⟩ := getLines_fresh w (List.replicate pre.length ' ') (opts.flatMap units ++ pos.flatMap units)
      rw [k1, j1, i1]
      split
      · rw [← List.map_append]
        refine ⟨_, rfl, fin _ (by rw [List.flatten_append, k2, j2]) ?_ ?_⟩
        · intro l hl
          exact (List.mem_append.1 hl).elim (k3 l) (j3 l)
        · intro h1 h2
          by_cases hr : r2 = []
          · subst hr
            rw [List.append_nil] at h1 h2
            exact k4 h1 h2
          · rw [List.getLast?_append_of_ne_nil _ hr] at h2
            exact j4 hr h2
      · exact ⟨_, rfl, fin _ i2 i3 i4⟩

end Verif.ArgHelp
