import Verif.Spec.SplitJoin
import Verif.Props.PgcTools
import Verif.Lemmas.Base
import Mathlib.Data.List.TakeWhile

namespace Verif.SplitJoin
open Verif Verif.Etree Verif.Spec.SplitJoin
set_option linter.unusedSectionVars false

/-! ### The order of names -/

theorem lt_append_left (r x y : List Char) (h : x < y) : r ++ x < r ++ y := by
  induction r with
  | nil => exact h
  | cons a r ih => exact List.cons_lt_cons_iff.2 (.inr ⟨rfl, ih⟩)

theorem value_init (l : List Char) (a : Nat) : Nat.ofDigitChars 10 l a = a * 10 ^ l.length + Nat.ofDigitChars 10 l 0 := by
  induction l generalizing a with
  | nil => simp [Nat.ofDigitChars]
  | cons c l ih =>
    rw [Nat.ofDigitChars_cons, Nat.ofDigitChars_cons, ih, ih (10 * 0 + _), List.length_cons, pow_succ]
    ring

theorem digit_lt {c : Char} (h : c.isDigit) : c.toNat - '0'.toNat < 10 := by
  simp only [Char.isDigit, ge_iff_le, Bool.and_eq_true, decide_eq_true_eq] at h
  have h2 : c.toNat ≤ '9'.toNat := h.2
  have : '9'.toNat = 57 := rfl
  have : '0'.toNat = 48 := rfl
  omega

theorem value_lt {l : List Char} (h : ∀ c ∈ l, c.isDigit) : Nat.ofDigitChars 10 l 0 < 10 ^ l.length := by
  induction l with
  | nil => simp [Nat.ofDigitChars]
  | cons c l ih =>
    have h1 := ih fun x hx => h x (List.mem_cons_of_mem _ hx)
    have h2 := digit_lt (h c List.mem_cons_self)
    rw [Nat.ofDigitChars_cons, value_init, List.length_cons, pow_succ]
    have : (10 * 0 + (c.toNat - '0'.toNat)) * 10 ^ l.length ≤ 9 * 10 ^ l.length := Nat.mul_le_mul_right _ (by omega)
    omega

theorem digits_lt {x y u v : List Char} (hx : ∀ c ∈ x, c.isDigit) (hy : ∀ c ∈ y, c.isDigit) (hlen : x.length = y.length)
    (h : Nat.ofDigitChars 10 x 0 < Nat.ofDigitChars 10 y 0) : x ++ u < y ++ v := by
  induction x generalizing y with
  | nil =>
    rw [List.length_nil] at hlen
    rw [List.length_eq_zero_iff.1 hlen.symm] at h
    exact absurd h (lt_irrefl _)
  | cons a x ih =>
    cases y with
    | nil => simp at hlen
    | cons b y =>
      have hlen : x.length = y.length := by simpa using hlen
      have ha := hx a List.mem_cons_self
      have hb := hy b List.mem_cons_self
      have hx' : ∀ c ∈ x, c.isDigit := fun c hc => hx c (List.mem_cons_of_mem _ hc)
      have hy' : ∀ c ∈ y, c.isDigit := fun c hc => hy c (List.mem_cons_of_mem _ hc)
      have vx := value_lt hx'
      have vy := value_lt hy'
      rw [Nat.ofDigitChars_cons, Nat.ofDigitChars_cons, value_init, value_init y, hlen] at h
      rw [hlen] at vx
      rw [List.cons_append, List.cons_append, List.cons_lt_cons_iff]
      rcases Nat.lt_trichotomy a.toNat b.toNat with hab | hab | hab
      · left; exact hab
      · right
        refine ⟨Char.toNat_inj.1 hab, ih hx' hy' hlen ?_⟩
        rw [hab] at h
        omega
      · exfalso
        have h0 : '0'.toNat ≤ b.toNat := by
          simp only [Char.isDigit, ge_iff_le, Bool.and_eq_true, decide_eq_true_eq] at hb
          exact hb.1
        have : (10 * 0 + (b.toNat - '0'.toNat) + 1) * 10 ^ y.length ≤ (10 * 0 + (a.toNat - '0'.toNat)) * 10 ^ y.length :=
          Nat.mul_le_mul_right _ (by omega)
        rw [Nat.add_mul] at this
        omega

open Props.PgcTools in
theorem four_length {n : Nat} {t : List Char} (h : FourDigits n t) (hn : n ≤ 9999) : t.length = 4 := by
  obtain ⟨h1, h2, h3, h4⟩ := h
  by_contra hne
  have hlt : 4 < t.length := by omega
  have h4 := h4 hlt
  cases t with
  | nil => simp at hlt
  | cons c t =>
    have hc := h1 c List.mem_cons_self
    rw [Nat.ofDigitChars_cons, value_init] at h2
    have h0 : '0'.toNat ≤ c.toNat := by
      simp only [Char.isDigit, ge_iff_le, Bool.and_eq_true, decide_eq_true_eq] at hc
      exact hc.1
    have hne' : c.toNat ≠ '0'.toNat := fun h => h4 (by rw [Char.toNat_inj.1 h]; rfl)
    have hp : 10 ^ 4 ≤ 10 ^ t.length := Nat.pow_le_pow_right (by omega) (by rw [List.length_cons] at hlt; omega)
    have : 1 * 10 ^ t.length ≤ (10 * 0 + (c.toNat - '0'.toNat)) * 10 ^ t.length := Nat.mul_le_mul_right _ (by omega)
    omega

theorem four_low {n : Nat} {t : List Char} (h : Props.PgcTools.FourDigits n t) (hl : 4 < t.length) :
    10 ^ (t.length - 1) ≤ n := by
  obtain ⟨h1, h2, h3, h4⟩ := h
  have h4 := h4 hl
  cases t with
  | nil => simp at hl
  | cons c t =>
    have hc := h1 c List.mem_cons_self
    rw [Nat.ofDigitChars_cons, value_init] at h2
    have h0 : '0'.toNat ≤ c.toNat := by
      simp only [Char.isDigit, ge_iff_le, Bool.and_eq_true, decide_eq_true_eq] at hc
      exact hc.1
    have hne' : c.toNat ≠ '0'.toNat := fun h => h4 (by rw [Char.toNat_inj.1 h]; rfl)
    have : 1 * 10 ^ t.length ≤ (10 * 0 + (c.toNat - '0'.toNat)) * 10 ^ t.length := Nat.mul_le_mul_right _ (by omega)
    rw [List.length_cons, Nat.add_sub_cancel]
    omega

theorem digits_eq {x y : List Char} (hx : ∀ c ∈ x, c.isDigit) (hy : ∀ c ∈ y, c.isDigit) (hlen : x.length = y.length)
    (h : Nat.ofDigitChars 10 x 0 = Nat.ofDigitChars 10 y 0) : x = y := by
  induction x generalizing y with
  | nil => exact (List.length_eq_zero_iff.1 hlen.symm).symm
  | cons a x ih =>
    cases y with
    | nil => simp at hlen
    | cons b y =>
      have hlen : x.length = y.length := by simpa using hlen
      have ha := hx a List.mem_cons_self
      have hb := hy b List.mem_cons_self
      have hx' : ∀ c ∈ x, c.isDigit := fun c hc => hx c (List.mem_cons_of_mem _ hc)
      have hy' : ∀ c ∈ y, c.isDigit := fun c hc => hy c (List.mem_cons_of_mem _ hc)
      have vx := value_lt hx'
      have vy := value_lt hy'
      rw [Nat.ofDigitChars_cons, Nat.ofDigitChars_cons, value_init, value_init y, hlen] at h
      rw [hlen] at vx
      have h0 : ∀ {c : Char}, c.isDigit → '0'.toNat ≤ c.toNat := by
        intro c hc
        simp only [Char.isDigit, ge_iff_le, Bool.and_eq_true, decide_eq_true_eq] at hc
        exact hc.1
      have h1 := h0 ha
      have h2 := h0 hb
      rcases Nat.lt_trichotomy a.toNat b.toNat with hab | hab | hab
      · exfalso
        have : (10 * 0 + (a.toNat - '0'.toNat) + 1) * 10 ^ y.length ≤ (10 * 0 + (b.toNat - '0'.toNat)) * 10 ^ y.length :=
          Nat.mul_le_mul_right _ (by omega)
        rw [Nat.add_mul] at this
        omega
      · rw [hab] at h
        rw [Char.toNat_inj.1 hab, ih hx' hy' hlen (by omega)]
      · exfalso
        have : (10 * 0 + (b.toNat - '0'.toNat) + 1) * 10 ^ y.length ≤ (10 * 0 + (a.toNat - '0'.toNat)) * 10 ^ y.length :=
          Nat.mul_le_mul_right _ (by omega)
        rw [Nat.add_mul] at this
        omega

theorem four_unique {n : Nat} {x y : List Char} (hx : Props.PgcTools.FourDigits n x) (hy : Props.PgcTools.FourDigits n y) :
    x = y := by
  have key : ∀ {x y : List Char}, Props.PgcTools.FourDigits n x → Props.PgcTools.FourDigits n y → ¬ x.length < y.length := by
    intro x y hx hy hlt
    have h1 := four_low hy (lt_of_le_of_lt hx.2.2.1 hlt)
    have h2 := value_lt hx.1
    rw [hx.2.1] at h2
    have := Nat.pow_le_pow_right (show 0 < 10 by omega) (Nat.le_sub_one_of_lt hlt)
    omega
  have := key hx hy
  have := key hy hx
  exact digits_eq hx.1 hy.1 (by omega) (hx.2.1.trans hy.2.1.symm)

theorem le_of_lt {x y : Text} (h : x < y) : String.ofList x ≤ String.ofList y := by
  apply _root_.le_of_lt
  rw [String.lt_iff_toList_lt, String.toList_ofList, String.toList_ofList]
  exact h

/-- Sorting gives the list, if it is in order. -/
theorem multiglob_eq {glob : Text → List Text} {pats l : List Text} (h : (pats.flatMap glob).Perm l)
    (hl : l.Pairwise fun x y => String.ofList x ≤ String.ofList y) : multiglob glob pats = l := by
  unfold multiglob
  refine List.Perm.eq_of_pairwise (le := fun x y => String.ofList x ≤ String.ofList y) ?_ ?_ hl
    ((List.mergeSort_perm _ _).trans h)
  · intro a b _ _ h1 h2
    have := congrArg String.toList (le_antisymm h1 h2)
    rwa [String.toList_ofList, String.toList_ofList] at this
  · have := List.pairwise_mergeSort (le := fun x y : Text => decide (String.ofList x ≤ String.ofList y))
      (fun a b c h1 h2 => by
        rw [decide_eq_true_eq] at *
        exact le_trans h1 h2)
      (fun a b => by
        rw [Bool.or_eq_true, decide_eq_true_eq, decide_eq_true_eq]
        exact le_total _ _) (pats.flatMap glob)
    exact this.imp fun h => by simpa using h

/-! ### Extensions -/

theorem takeWhile_append_of {α : Type} {f : α → Bool} {l m : List α} {a : α} (h : ∀ x ∈ l, f x = true) (ha : f a = false) :
    (l ++ a :: m).takeWhile f = l ∧ (l ++ a :: m).dropWhile f = a :: m := by
  induction l with
  | nil => simp [ha]
  | cons b l ih =>
    have h1 := h b List.mem_cons_self
    have h2 := ih fun x hx => h x (List.mem_cons_of_mem _ hx)
    simp only [List.cons_append, List.takeWhile_cons, List.dropWhile_cons, h1, if_true]
    exact ⟨by rw [h2.1], h2.2⟩

theorem basename_append (d b : Text) (hb : '/' ∉ b) : PosixPath.basename (d ++ b) = PosixPath.basename d ++ b := by
  unfold PosixPath.basename
  rw [List.reverse_append]
  have : ∀ l m : Text, '/' ∉ l → (l ++ m).takeWhile (· ≠ '/') = l ++ m.takeWhile (· ≠ '/') := by
    intro l m h
    induction l with
    | nil => rfl
    | cons c l ih =>
      rw [List.mem_cons, not_or] at h
      rw [List.cons_append, List.takeWhile_cons, ih h.2]
      have : c ≠ '/' := Ne.symm h.1
      simp [this]
  rw [this _ _ (by simpa using hb), List.reverse_append, List.reverse_reverse]

theorem basename_suffix (p : Text) : ∃ d, p = d ++ PosixPath.basename p := by
  unfold PosixPath.basename
  refine ⟨(p.reverse.dropWhile (· ≠ '/')).reverse, ?_⟩
  rw [← List.reverse_append, List.takeWhile_append_dropWhile, List.reverse_reverse]

theorem basename_noSlash (p : Text) : '/' ∉ PosixPath.basename p := by
  unfold PosixPath.basename
  intro h
  have := List.all_takeWhile (p := fun c => decide (c ≠ '/')) (l := p.reverse)
  rw [List.all_eq_true] at this
  have := this _ (List.mem_reverse.1 h)
  simp at this

theorem stem_dot (b x : Text) (hx : '.' ∉ x) :
    PgcZip.stem (b ++ '.' :: x) = if b.all (· = '.') then b ++ '.' :: x else b := by
  unfold PgcZip.stem
  have h : (b ++ '.' :: x).reverse = x.reverse ++ '.' :: b.reverse := by simp
  have : ((b ++ '.' :: x).reverse.dropWhile (· ≠ '.')).tail.reverse = b := by
    rw [h, (takeWhile_append_of (f := fun c => decide (c ≠ '.')) (l := x.reverse) (a := '.') (m := b.reverse) ?_ (by simp)).2]
    · simp
    · intro c hc
      have : c ≠ '.' := fun h => hx (h ▸ List.mem_reverse.1 hc)
      simpa using this
  dsimp only
  rw [this]

theorem stem_noDot (b : Text) (hb : '.' ∉ b) : PgcZip.stem b = b := by
  unfold PgcZip.stem
  have : b.reverse.dropWhile (· ≠ '.') = [] := by
    apply List.dropWhile_eq_nil_iff.2
    intro c hc
    have : c ≠ '.' := fun h => hb (h ▸ List.mem_reverse.1 hc)
    simpa using this
  rw [this]
  simp

theorem last_dot {b : Text} (h : '.' ∈ b) : ∃ r x, b = r ++ '.' :: x ∧ '.' ∉ x := by
  induction b with
  | nil => simp at h
  | cons c b ih =>
    by_cases hb : '.' ∈ b
    · obtain ⟨r, x, e, hx⟩ := ih hb
      exact ⟨c :: r, x, by rw [e]; rfl, hx⟩
    · rcases List.mem_cons.1 h with rfl | h
      · exact ⟨[], b, rfl, hb⟩
      · exact absurd h hb

theorem splitext_of {p b r x : Text} {d : Text} (hp : p = d ++ b) (hb : PosixPath.basename p = b) (hs : PgcZip.stem b = r)
    (hr : b = r ++ x) : splitext p = (d ++ r, x) := by
  unfold splitext
  dsimp only
  rw [hb, hs]
  have : p.take (p.length - b.length) = d := by
    rw [hp, List.length_append, Nat.add_sub_cancel, List.take_left]
  rw [this, hr, List.drop_left]

theorem splitext_spec {p r e : Text} (h : SplitExt p r e) : splitext p = (r, e) := by
  rcases h with ⟨x, rfl, rfl, h1, h2, d, c, b, rfl, h3, h4⟩ | ⟨rfl, rfl, h⟩
  · obtain ⟨d', hd'⟩ := basename_suffix d
    have hb : PosixPath.basename (d ++ c :: b ++ '.' :: x) = PosixPath.basename d ++ c :: b ++ '.' :: x := by
      rw [basename_append _ ('.' :: x) (by simpa using h2), basename_append _ _ h4]
    have hstem : PgcZip.stem (PosixPath.basename d ++ c :: b ++ '.' :: x) = PosixPath.basename d ++ c :: b := by
      rw [stem_dot _ _ h1, if_neg]
      simp [h3]
    have := splitext_of (p := d ++ c :: b ++ '.' :: x) (d := d') (b := PosixPath.basename d ++ c :: b ++ '.' :: x)
      (r := PosixPath.basename d ++ c :: b) (x := '.' :: x) (by
        conv => lhs; rw [hd']
        simp) hb hstem rfl
    rw [this]
    conv => rhs; rw [hd']
    simp
  · obtain ⟨d, hd⟩ := basename_suffix r
    have hb := basename_noSlash r
    have hstem : PgcZip.stem (PosixPath.basename r) = PosixPath.basename r := by
      by_cases hdot : '.' ∈ PosixPath.basename r
      · obtain ⟨q, x, e, hx⟩ := last_dot hdot
        rw [e, stem_dot _ _ hx]
        by_cases hq : q.all (· = '.')
        · rw [if_pos hq]
        · exfalso
          simp only [List.all_eq_true, decide_eq_true_eq, not_forall] at hq
          obtain ⟨c, hc, hcd⟩ := hq
          obtain ⟨u, v, rfl⟩ := List.append_of_mem hc
          rw [e] at hb
          refine h (d ++ (u ++ c :: v)) x ⟨by rw [hd, e]; simp, hx, ?_, d ++ u, c, v, by simp, hcd, ?_⟩
          · intro hs; apply hb; simp [hs]
          · intro hs; apply hb
            simp only [List.mem_append]
            exact .inl (.inr hs)
      · exact stem_noDot _ hdot
    have := splitext_of (x := []) hd rfl hstem (List.append_nil _).symm
    rw [this, ← hd]

end Verif.SplitJoin
