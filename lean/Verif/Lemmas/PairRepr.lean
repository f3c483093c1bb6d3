import Verif.Lemmas.Pair

set_option linter.unusedSectionVars false
namespace Verif.Pair
open Verif.Spec.Pair
open Verif.Etree (Text)
open Verif.StatsTable

/-! ### Numbers in base 16 -/

def unhexDigit (c : Char) : Nat := "0123456789abcdef".toList.idxOf c

def unhex (l : Text) : Nat := l.foldl (fun n c => 16 * n + unhexDigit c) 0

theorem unhexDigit_hexDigit (n : Nat) (hn : n < 16) : unhexDigit (hexDigit n) = n := by
  have : ∀ k : Fin 16, unhexDigit (hexDigit k.val) = k.val := by decide +kernel
  exact this ⟨n, hn⟩

theorem hex_length (k n : Nat) : (hex k n).length = k := by
  induction k generalizing n with
  | zero => rfl
  | succ k ih => simp [hex, ih]

theorem unhex_hex (k n : Nat) (hn : n < 16 ^ k) : unhex (hex k n) = n := by
  induction k generalizing n with
  | zero => simp at hn; subst hn; rfl
  | succ k ih =>
    have h1 : n / 16 < 16 ^ k := by rw [pow_succ] at hn; omega
    have := ih (n / 16) h1
    unfold unhex at this ⊢
    simp only [hex, List.foldl_append, this, List.foldl_cons, List.foldl_nil, unhexDigit_hexDigit (n % 16) (by omega)]
    omega

/-! ### Strings -/

/-- Read the first byte or character behind a quote. -/
def decode : Text → Nat × Text
  | [] => (0, [])
  | c :: r =>
    if c = '\\' then
      match r with
      | [] => (0, [])
      | d :: r =>
        if d = 'x' then (unhex (r.take 2), r.drop 2)
        else if d = 'u' then (unhex (r.take 4), r.drop 4)
        else if d = 'U' then (unhex (r.take 8), r.drop 8)
        else if d = 't' then (9, r)
        else if d = 'n' then (10, r)
        else if d = 'r' then (13, r)
        else (d.toNat, r)
    else (c.toNat, r)

theorem toNat_ofNat (n : Nat) (hn : n < 0xd800) : (Char.ofNat n).toNat = n := by
  have hv : n.isValidChar := Or.inl hn
  unfold Char.ofNat
  rw [dif_pos hv]
  rfl

theorem ofNat_ne (n : Nat) (hn : n < 0xd800) (c : Char) (hc : n ≠ c.toNat) : Char.ofNat n ≠ c := by
  intro h; exact hc (by rw [← h, toNat_ofNat n hn])

theorem take_hex (k n : Nat) (u : Text) : (hex k n ++ u).take k = hex k n := by
  rw [List.take_append_of_le_length (by rw [hex_length]), List.take_of_length_le (by rw [hex_length])]

theorem drop_hex (k n : Nat) (u : Text) : (hex k n ++ u).drop k = u := by
  rw [List.drop_append, List.drop_of_length_le (by rw [hex_length]), hex_length]; simp

theorem decode_escape (q : Char) (hq : q = '\'' ∨ q = '"') (n : Nat) (hn : n < 0x110000) (u : Text) :
    decode (escape q n ++ u) = (n, u) := by
  have hqn : q.toNat = 39 ∨ q.toNat = 34 := by rcases hq with rfl | rfl <;> simp <;> decide
  unfold escape
  split
  · rename_i h
    have hn' : n = 39 ∨ n = 34 ∨ n = 92 := by omega
    rcases hn' with rfl | rfl | rfl <;> rfl
  · rename_i h
    split
    · rename_i h; subst h; rfl
    split
    · rename_i h; subst h; rfl
    split
    · rename_i h; subst h; rfl
    split
    · split
      · simp only [List.cons_append, decode, if_true, take_hex, drop_hex, unhex_hex 2 n (by omega)]
      split
      · simp only [List.cons_append, decode, if_true, take_hex, drop_hex, unhex_hex 4 n (by omega)]; rfl
      · simp only [List.cons_append, decode, if_true, take_hex, drop_hex, unhex_hex 8 n (by omega)]; rfl
    · have h2 : n < 0xd800 := by omega
      have h1 : Char.ofNat n ≠ '\\' := ofNat_ne n h2 _ (by push Not at h; exact h.2)
      simp only [List.cons_append, List.nil_append, decode, h1, if_false, toNat_ofNat n h2]

theorem escape_ne (q : Char) (n : Nat) : ∃ c r, escape q n = c :: r ∧ (q = '\'' ∨ q = '"' → c ≠ q) := by
  unfold escape
  split
  · exact ⟨_, _, rfl, by rintro (rfl | rfl) <;> decide⟩
  · rename_i h
    split
    · exact ⟨_, _, rfl, by rintro (rfl | rfl) <;> decide⟩
    split
    · exact ⟨_, _, rfl, by rintro (rfl | rfl) <;> decide⟩
    split
    · exact ⟨_, _, rfl, by rintro (rfl | rfl) <;> decide⟩
    split
    · split
      · exact ⟨_, _, rfl, by rintro (rfl | rfl) <;> decide⟩
      split
      · exact ⟨_, _, rfl, by rintro (rfl | rfl) <;> decide⟩
      · exact ⟨_, _, rfl, by rintro (rfl | rfl) <;> decide⟩
    · refine ⟨_, _, rfl, fun _ => ?_⟩
      push Not at h
      exact ofNat_ne n (by omega) _ h.1

theorem body_inj (q : Char) (hq : q = '\'' ∨ q = '"') (ns ms : List Nat) (hn : ∀ n ∈ ns, n < 0x110000)
    (hm : ∀ n ∈ ms, n < 0x110000) (u v : Text)
    (h : ns.flatMap (escape q) ++ q :: u = ms.flatMap (escape q) ++ q :: v) : ns = ms ∧ u = v := by
  induction ns generalizing ms with
  | nil =>
    cases ms with
    | nil => simpa using h
    | cons m ms =>
      obtain ⟨c, r, hc, hcq⟩ := escape_ne q m
      simp [hc] at h
      exact absurd h.1.symm (hcq hq)
  | cons n ns ih =>
    cases ms with
    | nil =>
      obtain ⟨c, r, hc, hcq⟩ := escape_ne q n
      simp [hc] at h
      exact absurd h.1 (hcq hq)
    | cons m ms =>
      simp only [List.flatMap_cons, List.append_assoc] at h
      have h1 := congrArg decode h
      rw [decode_escape q hq n (hn n (by simp)), decode_escape q hq m (hm m (by simp))] at h1
      obtain ⟨rfl, h2⟩ := Prod.ext_iff.1 h1
      obtain ⟨rfl, h3⟩ := ih ms (fun k hk => hn k (by simp [hk])) (fun k hk => hm k (by simp [hk])) h2
      exact ⟨rfl, h3⟩

theorem quote_or (ns : List Nat) : quote ns = '\'' ∨ quote ns = '"' := by
  unfold quote; split
  · exact .inr rfl
  · exact .inl rfl

theorem quoted_inj (ns ms : List Nat) (hn : ∀ n ∈ ns, n < 0x110000)
    (hm : ∀ n ∈ ms, n < 0x110000) (u v : Text) (h : quoted ns ++ u = quoted ms ++ v) : ns = ms ∧ u = v := by
  simp only [quoted, List.cons_append, List.append_assoc, List.cons.injEq, List.nil_append] at h
  obtain ⟨h1, h2⟩ := h
  rw [← h1] at h2
  exact body_inj (quote ns) (quote_or ns) ns ms hn hm u v h2

/-! ### Integers -/

/-- The characters of the repr of an integer. -/
def intChar (c : Char) : Bool := c.isDigit || c == '-' || c == 'L'

theorem showInt_intChar (n : Int) : ∀ c ∈ showInt n, intChar c = true ∧ c ≠ 'L' := by
  intro c hc
  have hd : ∀ c, c.isDigit = true → intChar c = true ∧ c ≠ 'L' := by
    intro c h
    refine ⟨by simp [intChar, h], ?_⟩
    rintro rfl; revert h; decide
  unfold showInt at hc
  split at hc
  · rcases List.mem_cons.1 hc with rfl | hc
    · decide
    · exact hd c (digit_toDigits _ c hc)
  · exact hd c (digit_toDigits _ c hc)

theorem reprInt_intChar (n : Int) : ∀ c ∈ reprInt n, intChar c = true := by
  intro c hc
  rcases List.mem_append.1 hc with hc | hc
  · exact (showInt_intChar n c hc).1
  · split at hc
    · simp at hc
    · simp at hc; subst hc; decide

theorem takeWhile_stop {p : Char → Bool} {l u : Text} (hl : ∀ c ∈ l, p c = true) (hu : ∀ c ∈ u.head?, p c = false) :
    (l ++ u).takeWhile p = l := by
  rw [List.takeWhile_append_of_pos hl]
  cases u with
  | nil => simp
  | cons c u => simp [hu c (by simp)]

theorem reprInt_inj {m n : Int} {u v : Text} (hu : ∀ c ∈ u.head?, intChar c = false)
    (hv : ∀ c ∈ v.head?, intChar c = false) (h : reprInt m ++ u = reprInt n ++ v) : m = n ∧ u = v := by
  have h1 := congrArg (List.takeWhile intChar) h
  rw [takeWhile_stop (reprInt_intChar m) hu, takeWhile_stop (reprInt_intChar n) hv] at h1
  have h2 := congrArg (List.takeWhile (· != 'L')) h1
  have h3 : ∀ k : Int, (reprInt k).takeWhile (· != 'L') = showInt k := by
    intro k
    unfold reprInt
    refine takeWhile_stop (fun c hc => by simpa using (showInt_intChar k c hc).2) ?_
    split <;> simp
  rw [h3, h3] at h2
  obtain rfl := Verif.AlignPrint.showInt_inj h2
  exact ⟨rfl, List.append_cancel_left h⟩

theorem reprInt_first (n : Int) : ∃ c r, reprInt n = c :: r ∧ intChar c = true := by
  rcases hr : reprInt n with _ | ⟨c, r⟩
  · unfold reprInt at hr
    exact absurd (List.append_eq_nil_iff.1 hr).1 (showInt_ne n)
  · exact ⟨c, r, rfl, reprInt_intChar n c (by rw [hr]; simp)⟩

/-! ### Objects -/

/-- The texts of a pair. -/
@[irreducible] def framed (s t : Text) : Text := "Pair(source=".toList ++ s ++ ", target=".toList ++ t ++ ")".toList

/-- The repr of a content. -/
def shown : Tree → Text
  | .none => "None".toList
  | .int n => reprInt n
  | .str s => quoted (s.map Fin.val)
  | .uni t => 'u' :: quoted (t.map Char.toNat)
  | .pair s t => framed (shown s) (shown t)

theorem repr_shown {h : Heap} {i : Item} {t : Tree} (hi : Content h i t) (limit : Nat) (hd : t.depth ≤ limit) :
    repr h limit i = .ok (shown t) := by
  induction hi generalizing limit with
  | none => cases limit <;> simp only [repr, shown, pure, Except.pure]
  | int n => cases limit <;> simp only [repr, shown, pure, Except.pure]
  | str s => cases limit <;> simp only [repr, shown, pure, Except.pure]
  | uni s => cases limit <;> simp only [repr, shown, pure, Except.pure]
  | pair a x y s u ha hx hy h1 h2 =>
    obtain ⟨l, rfl⟩ : ∃ l, limit = l + 1 := ⟨limit - 1, by simp [Tree.depth] at hd; omega⟩
    have hs' : s.depth ≤ l ∧ u.depth ≤ l := by simpa [Tree.depth] using hd
    simp only [repr, get_some ha, bind, Except.bind, h1 l hs'.1, h2 l hs'.2, pure, Except.pure, shown, framed]

theorem repr_deep {h : Heap} {i : Item} {t : Tree} (hi : Content h i t) (limit : Nat) (hd : limit < t.depth) :
    repr h limit i = .error .fuel := by
  induction hi generalizing limit with
  | pair a x y s u ha hx hy h1 h2 =>
    cases limit with
    | zero => rfl
    | succ l =>
      simp only [repr, get_some ha, bind, Except.bind]
      by_cases hc : l < s.depth
      · rw [h1 l hc]
      · rw [repr_shown hx l (by omega)]
        have : l < u.depth := by simp [Tree.depth] at hd; omega
        simp only [h2 l this]
  | _ => simp [Tree.depth] at hd

/-- The kind of an object. -/
def kind : Tree → Nat
  | .none => 0 | .int _ => 1 | .str _ => 2 | .uni _ => 3 | .pair _ _ => 4

/-- The kind, by the first character of the repr. -/
def kindOf (c : Char) : Nat :=
  if c = 'N' then 0 else if intChar c then 1 else if c = '\'' ∨ c = '"' then 2 else if c = 'u' then 3 else 4

theorem shown_kind (t : Tree) : ∃ c r, shown t = c :: r ∧ kindOf c = kind t := by
  cases t with
  | none => exact ⟨_, _, rfl, rfl⟩
  | int n =>
    obtain ⟨c, r, hc, hi⟩ := reprInt_first n
    refine ⟨c, r, hc, ?_⟩
    have : c ≠ 'N' := by rintro rfl; revert hi; decide
    simp [kindOf, this, hi, kind]
  | str s =>
    refine ⟨_, _, rfl, ?_⟩
    rcases quote_or (s.map Fin.val) with h | h <;> rw [h] <;> show kindOf _ = 2 <;> decide
  | uni s => exact ⟨_, _, rfl, by show kindOf _ = 3; decide⟩
  | pair s t =>
    refine ⟨'P', "air(source=".toList ++ shown s ++ ", target=".toList ++ shown t ++ ")".toList, ?_, by show kindOf _ = 4; decide⟩
    have : "Pair(source=".toList = 'P' :: "air(source=".toList := by decide
    simp only [shown, framed, this, List.cons_append]

theorem shown_inj (s t : Tree) (u v : Text) (hu : ∀ c ∈ u.head?, intChar c = false)
    (hv : ∀ c ∈ v.head?, intChar c = false) (h : shown s ++ u = shown t ++ v) : s = t ∧ u = v := by
  have hk : kind s = kind t := by
    obtain ⟨c, r, hc, h1⟩ := shown_kind s
    obtain ⟨d, r', hd, h2⟩ := shown_kind t
    rw [hc, hd] at h
    rw [← h1, ← h2, (List.cons.inj h).1]
  induction s generalizing t u v with
  | none =>
    cases t <;> simp [kind] at hk
    exact ⟨rfl, List.append_cancel_left h⟩
  | int n =>
    cases t <;> simp [kind] at hk
    obtain ⟨rfl, h2⟩ := reprInt_inj hu hv h
    exact ⟨rfl, h2⟩
  | str n =>
    cases t <;> simp [kind] at hk
    obtain ⟨h1, h2⟩ := quoted_inj _ _ (by simp; intro a _; have := a.isLt; omega) (by simp; intro a _; have := a.isLt; omega) _ _ h
    rw [bytes_inj h1]
    exact ⟨rfl, h2⟩
  | uni n =>
    cases t <;> simp [kind] at hk
    have hb : ∀ c : Char, c.toNat < 0x110000 := by
      intro c
      have := c.valid
      rcases this with h | h
      · have : c.toNat < 0xd800 := h
        omega
      · exact h.2
    obtain ⟨h1, h2⟩ := quoted_inj _ _ (by simp; intro a _; exact hb a) (by simp; intro a _; exact hb a) _ _ (List.cons.inj h).2
    rw [codes_inj h1]
    exact ⟨rfl, h2⟩
  | pair a b iha ihb =>
    cases t with
    | pair a' b' =>
      simp only [shown, framed, List.append_assoc] at h
      generalize hA : "Pair(source=".toList = A at h
      generalize hB : ", target=".toList = B at h
      generalize hC : ")".toList = C at h
      have hb : ∀ w : Text, ∀ c ∈ (B ++ w).head?, intChar c = false := by
        intro w c hc
        have : B = ',' :: " target=".toList := by rw [← hB]; decide
        rw [this] at hc
        simp only [List.cons_append, List.head?_cons, Option.mem_def, Option.some.injEq] at hc
        rw [← hc]; decide
      have hcc : ∀ w : Text, ∀ c ∈ (C ++ w).head?, intChar c = false := by
        intro w c hc
        have : C = ')' :: [] := by rw [← hC]; decide
        rw [this] at hc
        simp only [List.cons_append, List.head?_cons, Option.mem_def, Option.some.injEq] at hc
        rw [← hc]; decide
      have h1 := List.append_cancel_left h
      have kk : ∀ (x y : Tree) (u v : Text), shown x ++ u = shown y ++ v → kind x = kind y := by
        intro x y u v h
        obtain ⟨c, r, hc, h1⟩ := shown_kind x
        obtain ⟨d, r', hd, h2⟩ := shown_kind y
        rw [hc, hd] at h
        rw [← h1, ← h2, (List.cons.inj h).1]
      obtain ⟨rfl, h2⟩ := iha a' _ _ (hb _) (hb _) h1 (kk _ _ _ _ h1)
      have h3 := List.append_cancel_left h2
      obtain ⟨rfl, h4⟩ := ihb b' _ _ (hcc _) (hcc _) h3 (kk _ _ _ _ h3)
      exact ⟨rfl, List.append_cancel_left h4⟩
    | _ => simp [kind] at hk

/-! ### str -/

/-- What str makes of a content, if it can. -/
def strOf : Tree → Option Text
  | .none => some "None".toList
  | .int n => some (showInt n)
  | .str s => some (s.map (fun b => Char.ofNat b.val))
  | .uni t => if t.all (fun c => c.toNat < 128) then some t else none
  | .pair s t => match strOf s, strOf t with
    | some a, some b => some (framed a b)
    | _, _ => none

theorem str_strOf {h : Heap} {i : Item} {t : Tree} (hi : Content h i t) (limit : Nat) (hd : t.depth ≤ limit) :
    str h limit i = match strOf t with | some x => .ok x | none => .error .unicodeError := by
  induction hi generalizing limit with
  | none => cases limit <;> rfl
  | int n => cases limit <;> rfl
  | str s => cases limit <;> rfl
  | uni s =>
    have : ∀ l, str h l (.uni s) = if s.all (fun c => c.toNat < 128) then pure s else .error .unicodeError := by
      intro l; cases l <;> rfl
    rw [this]
    unfold strOf
    split <;> rfl
  | pair a x y s u ha hx hy h1 h2 =>
    obtain ⟨l, rfl⟩ : ∃ l, limit = l + 1 := ⟨limit - 1, by simp [Tree.depth] at hd; omega⟩
    have hs' : s.depth ≤ l ∧ u.depth ≤ l := by simpa [Tree.depth] using hd
    simp only [str, get_some ha, bind, Except.bind, h1 l hs'.1, h2 l hs'.2, strOf]
    rcases strOf s with _ | a
    · rfl
    · rcases strOf u with _ | b
      · rfl
      · simp only [framed, pure, Except.pure]

end Verif.Pair
