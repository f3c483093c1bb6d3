import Verif.Lemmas.PairRepr

/-! C78: pairs of a source and a target: equality, membership in lists and sets, changes, printing. -/
set_option linter.unusedSectionVars false
namespace Verif.Props.Pair
open Verif.Pair
open Verif.Spec.Pair
open Verif.Etree (Text)

private def ascii (s : String) : List (Fin 256) := s.toList.map (fun c => Fin.ofNat 256 c.toNat)

/-- Two pairs of 'x' and u'y', one of u'x' and 'y', and a pair of the first and the number 3. -/
private def sample : Heap :=
  [(.str (ascii "x"), .uni "y".toList), (.str (ascii "x"), .uni "y".toList), (.uni "x".toList, .str (ascii "y")),
   (.pair 0, .int 3), (.pair 2, .int 3)]

private def leaf : Tree := .pair (.str (ascii "x")) (.uni "y".toList)
private def leaf' : Tree := .pair (.uni "x".toList) (.str (ascii "y"))

private theorem sample0 : Content sample (.pair 0) leaf := .pair 0 _ _ _ _ rfl (.str _) (.uni _)
private theorem sample1 : Content sample (.pair 1) leaf := .pair 1 _ _ _ _ rfl (.str _) (.uni _)
private theorem sample2 : Content sample (.pair 2) leaf' := .pair 2 _ _ _ _ rfl (.uni _) (.str _)
private theorem sample3 : Content sample (.pair 3) (.pair leaf (.int 3)) := .pair 3 _ _ _ _ rfl sample0 (.int 3)
private theorem sample4 : Content sample (.pair 4) (.pair leaf' (.int 3)) := .pair 4 _ _ _ _ rfl sample2 (.int 3)

/-- `==` of two objects tells whether their contents are the same, wherever they are in memory, if pairs are not nested
deeper than the recursion limit. -/
theorem equal_iff {h : Heap} {i j : Item} {s t : Tree} (hi : Content h i s) (hj : Content h j t) (limit : Nat)
    (hs : s.depth ≤ limit) (ht : t.depth ≤ limit) :
    ∃ r, eq h limit i j = .ok r ∧ (r = some true ↔ Same s t) := eq_content hi hj limit hs ht

example : eq sample 2 (.pair 3) (.pair 4) = .ok (some true) := by decide +kernel
example : (Tree.pair leaf (.int 3)).depth ≤ 2 ∧ (Tree.pair leaf' (.int 3)).depth ≤ 2 := by decide +kernel
example : eq sample 2 (.pair 3) (.pair 0) = .ok none := by decide +kernel

/-- To have the same content is an equivalence. -/
theorem equivalence : (∀ t, Same t t) ∧ (∀ s t, Same s t → Same t s) ∧ (∀ s t u, Same s t → Same t u → Same s u) :=
  ⟨Same.refl, fun _ _ => Verif.Pair.Same.symm, fun _ _ _ => Verif.Pair.Same.trans⟩

/-- A pair and something else: the result is None rather than False, on both sides. -/
theorem equal_other (h : Heap) (limit a : Nat) (x : Item) (hx : ∀ b, x ≠ .pair b) :
    eq h (limit + 1) (.pair a) x = .ok none ∧ eq h (limit + 1) x (.pair a) = .ok none := by
  cases x with
  | pair b => exact absurd rfl (hx b)
  | _ => exact ⟨rfl, rfl⟩

example : ∀ b, (Item.int 3) ≠ .pair b := by simp

/-- The same content, nested deeper than the limit: RuntimeError. -/
theorem too_deep {h : Heap} {i j : Item} {s t : Tree} (hi : Content h i s) (hj : Content h j t) (hst : Same s t)
    (limit : Nat) (hs : limit < s.depth) : eq h limit i j = .error .fuel := eq_deep hi hj hst limit hs

example : eq sample 1 (.pair 3) (.pair 4) = .error .fuel := by decide +kernel

/-- A pair that holds itself, directly or in other pairs, cannot be compared with itself, although it is found in a list. -/
theorem cyclic {h : Heap} (hc : Closed h) (i : Item) (hi : ∀ a, i = .pair a → a < h.length)
    (hn : ¬ ∃ t, Content h i t) (limit : Nat) (l : List Item) :
    eq h limit i i = .error .fuel ∧ contains h limit i (i :: l) = .ok true := by
  refine ⟨?_, by simp [contains, same_self, bind, Except.bind, pure, Except.pure]⟩
  rcases hr : eq h limit i i with e | r
  · rw [eq_error hc limit i i hi hi hr]
  · exact absurd (eq_self_content limit i hr).2 hn

private def loop : Heap := [(.int 1, .pair 1), (.pair 0, .none)]

private theorem loop_deep (t : Tree) : ∀ a, a < 2 → ¬ Content loop (.pair a) t := by
  induction t with
  | pair s t ih1 ih2 =>
    intro a ha hc
    cases hc with
    | pair _ x y _ _ h1 h2 h3 =>
      have : a = 0 ∨ a = 1 := by omega
      rcases this with rfl | rfl
      · simp [loop] at h1; obtain ⟨rfl, rfl⟩ := h1; exact ih2 1 (by omega) h3
      · simp [loop] at h1; obtain ⟨rfl, rfl⟩ := h1; exact ih1 0 (by omega) h2
  | _ => intro a _ hc; cases hc

example : Closed loop ∧ ¬ ∃ t, Content loop (.pair 0) t := by
  refine ⟨?_, fun ⟨t, ht⟩ => loop_deep t 0 (by omega) ht⟩
  intro a x y ha
  have : a < 2 := by
    by_contra hn
    rw [List.getElem?_eq_none (by simp [loop]; omega)] at ha; cases ha
  have : a = 0 ∨ a = 1 := by omega
  rcases this with rfl | rfl
  · simp [loop] at ha; obtain ⟨rfl, rfl⟩ := ha; simp [loop]
  · simp [loop] at ha; obtain ⟨rfl, rfl⟩ := ha; simp [loop]

/-- `!=` does not look at the content: two pairs differ unless they are one object, so two pairs with the same content are
both equal and unequal. -/
theorem unequal_identity (a b : Nat) (x : Item) (hx : ∀ c, x ≠ .pair c) :
    ne (.pair a) (.pair b) = decide (a ≠ b) ∧ ne (.pair a) x = true ∧ ne x (.pair a) = true := by
  refine ⟨by simp [ne], ?_, ?_⟩
  · cases x with
    | pair c => exact absurd rfl (hx c)
    | _ => rfl
  · cases x with
    | pair c => exact absurd rfl (hx c)
    | _ => rfl

example : eq sample 9 (.pair 0) (.pair 1) = .ok (some true) ∧ ne (.pair 0) (.pair 1) = true := by decide +kernel

/-! ### Lists -/

/-- The objects of a list and their contents. -/
def Contents (h : Heap) (limit : Nat) (l : List Item) (ts : List Tree) : Prop :=
  List.Forall₂ (fun i t => Content h i t ∧ t.depth ≤ limit) l ts

private theorem sampleList : Contents sample 2 [.int 3, .pair 1, .pair 2, .pair 3] [.int 3, leaf, leaf', .pair leaf (.int 3)] :=
  .cons ⟨.int 3, by decide⟩ (.cons ⟨sample1, by decide⟩ (.cons ⟨sample2, by decide⟩ (.cons ⟨sample3, by decide⟩ .nil)))

/-- `x in l` for a list: whether something in the list has the same content. -/
theorem in_list {h : Heap} {limit : Nat} {x : Item} {s : Tree} (hx : Content h x s) (hs : s.depth ≤ limit)
    {l : List Item} {ts : List Tree} (hl : Contents h limit l ts) :
    ∃ b, contains h limit x l = .ok b ∧ (b = true ↔ ∃ t ∈ ts, Same s t) := by
  induction hl with
  | nil => exact ⟨false, rfl, by simp⟩
  | cons hd tl ih =>
    rename_i y t l ts
    obtain ⟨b, hb, hbs⟩ := same_content hx hd.1 limit hs hd.2
    obtain ⟨b', hb', hbs'⟩ := ih
    cases b with
    | true => exact ⟨true, by simp [contains, hb, bind, Except.bind, pure, Except.pure],
        fun _ => ⟨t, by simp, hbs.1 rfl⟩, fun _ => rfl⟩
    | false =>
      refine ⟨b', by simp [contains, hb, hb', bind, Except.bind], ?_⟩
      rw [hbs']
      constructor
      · rintro ⟨u, hu, hus⟩; exact ⟨u, by simp [hu], hus⟩
      · rintro ⟨u, hu, hus⟩
        rcases List.mem_cons.1 hu with rfl | hu
        · exact absurd (hbs.2 hus) (by simp)
        · exact ⟨u, hu, hus⟩

example : contains sample 2 (.pair 0) [.int 3, .pair 1, .pair 2, .pair 3] = .ok true := by decide +kernel

/-- `l.index(x)` is the place of the first object with the content of x, and `l.remove(x)` takes that object away, which
need not be x; without such an object both fail with ValueError. -/
theorem first_same {h : Heap} {limit : Nat} {x : Item} {s : Tree} (hx : Content h x s) (hs : s.depth ≤ limit)
    {l : List Item} {ts : List Tree} (hl : Contents h limit l ts) :
    (∃ (k : Nat) (t : Tree), ts[k]? = some t ∧ Same s t ∧ (∀ (j : Nat) (u : Tree), j < k → ts[j]? = some u → ¬ Same s u) ∧
      index h limit x l = .ok k ∧ remove h limit x l = .ok (l.eraseIdx k)) ∨
    ((∀ t ∈ ts, ¬ Same s t) ∧ index h limit x l = .error .valueError ∧ remove h limit x l = .error .valueError) := by
  induction hl with
  | nil => exact .inr ⟨by simp, rfl, rfl⟩
  | cons hd tl ih =>
    rename_i y t l ts
    obtain ⟨b, hb, hbs⟩ := same_content hd.1 hx limit hd.2 hs
    cases b with
    | true =>
      exact .inl ⟨0, t, rfl, Verif.Pair.Same.symm (hbs.1 rfl), fun j _ hj => absurd hj (by omega),
        by simp [index, hb, bind, Except.bind, pure, Except.pure],
        by simp [remove, hb, bind, Except.bind, pure, Except.pure]⟩
    | false =>
      have hn : ¬ Same s t := fun g => absurd (hbs.2 (Verif.Pair.Same.symm g)) (by simp)
      rcases ih with ⟨k, u, h1, h2, h3, h4, h5⟩ | ⟨h1, h2, h3⟩
      · refine .inl ⟨k + 1, u, by simpa using h1, h2, ?_, ?_, ?_⟩
        · intro j w hj hw
          cases j with
          | zero => simp at hw; subst hw; exact hn
          | succ j => exact h3 j w (by omega) (by simpa using hw)
        · simp [index, hb, h4, bind, Except.bind, pure, Except.pure]
        · simp [remove, hb, h5, bind, Except.bind, pure, Except.pure]
      · refine .inr ⟨?_, ?_, ?_⟩
        · intro u hu
          rcases List.mem_cons.1 hu with rfl | hu
          · exact hn
          · exact h1 u hu
        · simp [index, hb, h2, bind, Except.bind]
        · simp [remove, hb, h3, bind, Except.bind]

example : index sample 2 (.pair 2) [.int 3, .pair 1, .pair 2, .pair 3] = .ok 1 ∧
    remove sample 2 (.pair 2) [.int 3, .pair 1, .pair 2, .pair 3] = .ok [.int 3, .pair 2, .pair 3] := by decide +kernel

open Classical in
/-- `l.count(x)` is the number of objects with the content of x. -/
theorem count_same {h : Heap} {limit : Nat} {x : Item} {s : Tree} (hx : Content h x s) (hs : s.depth ≤ limit)
    {l : List Item} {ts : List Tree} (hl : Contents h limit l ts) :
    count h limit x l = .ok (ts.countP (fun t => decide (Same s t))) := by
  induction hl with
  | nil => rfl
  | cons hd tl ih =>
    rename_i y t l ts
    obtain ⟨b, hb, hbs⟩ := same_content hd.1 hx limit hd.2 hs
    have : (Same s t) ↔ b = true := ⟨fun g => hbs.2 (Verif.Pair.Same.symm g), fun g => Verif.Pair.Same.symm (hbs.1 g)⟩
    simp only [count, hb, ih, bind, Except.bind, pure, Except.pure, List.countP_cons, this]
    cases b <;> simp

example : count sample 2 (.pair 0) [.int 3, .pair 1, .pair 2, .pair 3] = .ok 2 := by decide +kernel

private theorem all_same {h : Heap} {limit : Nat} {l m : List Item} {ts us : List Tree} (hl : Contents h limit l ts)
    (hm : Contents h limit m us) (hlen : l.length = m.length) :
    ∃ b, allSame h limit l m = .ok b ∧ (b = true ↔ List.Forall₂ Same ts us) := by
  induction hl generalizing m us with
  | nil =>
    cases hm with
    | nil => exact ⟨true, rfl, fun _ => .nil, fun _ => rfl⟩
    | cons _ _ => simp at hlen
  | cons hd _ ih =>
    cases hm with
    | nil => simp at hlen
    | cons hd' tl' =>
      obtain ⟨b, hb, hbs⟩ := same_content hd.1 hd'.1 limit hd.2 hd'.2
      obtain ⟨b', hb', hbs'⟩ := ih tl' (by simpa using hlen)
      cases b with
      | true =>
        refine ⟨b', by simp [allSame, hb, hb', bind, Except.bind], ?_⟩
        rw [List.forall₂_cons, hbs']
        exact ⟨fun g => ⟨hbs.1 rfl, g⟩, fun g => g.2⟩
      | false =>
        refine ⟨false, by simp [allSame, hb, bind, Except.bind, pure, Except.pure], ?_⟩
        rw [List.forall₂_cons]
        exact ⟨fun g => by simp at g, fun g => absurd (hbs.2 g.1) (by simp)⟩

/-- `==` and `!=` of lists: whether there are as many objects with the same contents in the same order; here `!=` is the
opposite of `==`, unlike for pairs. -/
theorem lists_equal {h : Heap} {limit : Nat} {l m : List Item} {ts us : List Tree} (hl : Contents h limit l ts)
    (hm : Contents h limit m us) :
    ∃ b, listEq h limit l m = .ok b ∧ listNe h limit l m = .ok (!b) ∧ (b = true ↔ List.Forall₂ Same ts us) := by
  by_cases hlen : l.length = m.length
  · obtain ⟨b, hb, hbs⟩ := all_same hl hm hlen
    exact ⟨b, by simp [listEq, hlen, hb], by simp [listNe, listEq, hlen, hb, bind, Except.bind, pure, Except.pure], hbs⟩
  · refine ⟨false, by simp [listEq, hlen, pure, Except.pure],
      by simp [listNe, listEq, hlen, bind, Except.bind, pure, Except.pure], by simp, fun g => ?_⟩
    exact absurd (hl.length_eq.trans (g.length_eq.trans hm.length_eq.symm)) hlen

example : listEq sample 2 [.pair 0, .pair 3] [.pair 1, .pair 4] = .ok true ∧
    listNe sample 2 [.pair 0, .pair 3] [.pair 1, .pair 4] = .ok false ∧
    listEq sample 2 [.pair 0, .pair 3] [.pair 1, .pair 0] = .ok false := by decide +kernel

/-! ### Sets -/

/-- The hash of a pair is made of its address. -/
def ByAddress (hash : Item → Int) : Prop := ∀ a b, hash (.pair a) = hash (.pair b) → a = b

/-- `x in s` for a set (or a dict) and a pair: whether the pair itself is in it, whatever the pairs hold now or held when they
were added. -/
theorem in_set {hash : Item → Int} (hh : ByAddress hash) (h : Heap) (limit a : Nat) (s : List Item) :
    inSet hash h (limit + 1) (.pair a) s = .ok (decide (Item.pair a ∈ s)) := by
  induction s with
  | nil => rfl
  | cons y s ih =>
    by_cases hy : hash y = hash (.pair a)
    · cases y with
      | pair b =>
        obtain rfl := hh b a hy
        simp [inSet, same, bind, Except.bind, pure, Except.pure]
      | _ => simp [inSet, same, eq, hy, ih, bind, Except.bind, pure, Except.pure]
    · have : Item.pair a ≠ y := by rintro rfl; exact hy rfl
      simp [inSet, hy, ih, this]

private def byAddress : Item → Int
  | .pair a => a
  | _ => 3

private theorem byAddress_ok : ByAddress byAddress := by
  intro a b hab; simpa [byAddress] using hab

example : inSet byAddress sample 1 (.pair 0) [.int 3, .pair 1, .pair 2, .pair 3] = .ok false ∧
    contains sample 1 (.pair 0) [.int 3, .pair 1] = .ok true ∧
    inSet byAddress sample 1 (.pair 3) [.int 3, .pair 1, .pair 2, .pair 3] = .ok true := by decide +kernel

/-- `set(l)` for a list of pairs keeps every pair of the list once, also those with the same content. -/
theorem set_of {hash : Item → Int} (hh : ByAddress hash) (h : Heap) (limit : Nat) (l : List Item)
    (hl : ∀ x ∈ l, ∃ a, x = .pair a) :
    ∃ s, setOf hash h (limit + 1) l = .ok s ∧ s.Nodup ∧ ∀ x, x ∈ s ↔ x ∈ l := by
  have key : ∀ (l : List Item) (s0 : List Item), (∀ x ∈ l, ∃ a, x = .pair a) → s0.Nodup →
      ∃ s, Py.forIn l s0 (fun x s => add hash h (limit + 1) x s) = .ok s ∧ s.Nodup ∧ ∀ x, x ∈ s ↔ x ∈ s0 ∨ x ∈ l := by
    intro l
    induction l with
    | nil => intro s0 _ h0; exact ⟨s0, rfl, h0, by simp⟩
    | cons x l ih =>
      intro s0 hl h0
      obtain ⟨a, rfl⟩ := hl x (by simp)
      have hadd : ∃ s1, add hash h (limit + 1) (.pair a) s0 = .ok s1 ∧ s1.Nodup ∧ ∀ x, x ∈ s1 ↔ x ∈ s0 ∨ x = .pair a := by
        by_cases ha : Item.pair a ∈ s0
        · refine ⟨s0, by simp [add, in_set hh, ha, bind, Except.bind, pure, Except.pure], h0, fun x => ?_⟩
          exact ⟨.inl, fun g => g.elim id (fun g => g ▸ ha)⟩
        · refine ⟨s0 ++ [.pair a], by simp [add, in_set hh, ha, bind, Except.bind, pure, Except.pure], ?_, by simp⟩
          rw [List.nodup_append]
          refine ⟨h0, by simp, ?_⟩
          intro y hy z hz
          simp at hz; subst hz; rintro rfl; exact ha hy
      obtain ⟨s1, h1, h2, h3⟩ := hadd
      obtain ⟨s, g1, g2, g3⟩ := ih s1 (fun y hy => hl y (by simp [hy])) h2
      refine ⟨s, by simp only [Py.forIn, h1, g1], g2, fun y => ?_⟩
      rw [g3, h3, List.mem_cons, or_assoc]
  obtain ⟨s, h1, h2, h3⟩ := key l [] hl List.nodup_nil
  exact ⟨s, h1, h2, by simpa using h3⟩

example : setOf byAddress sample 1 [.pair 0, .pair 1, .pair 0, .pair 2] = .ok [.pair 0, .pair 1, .pair 2] := by decide +kernel

/-- Two sets of pairs that were made apart, like those of two calls of `alignments`, have no pair in common even if the
contents are the same. -/
theorem sets_apart {hash : Item → Int} (hh : ByAddress hash) (h : Heap) (limit : Nat) (s t : List Item)
    (hs : ∀ x ∈ s, ∃ a, x = .pair a) (hd : ∀ x ∈ s, x ∉ t) : inter hash h (limit + 1) t s = .ok [] := by
  induction s with
  | nil => rfl
  | cons x s ih =>
    obtain ⟨a, rfl⟩ := hs x (by simp)
    have h1 := ih (fun y hy => hs y (by simp [hy])) (fun y hy => hd y (by simp [hy]))
    simp [inter, in_set hh, h1, hd (.pair a) (by simp), bind, Except.bind, pure, Except.pure]

example : inter byAddress sample 9 [.pair 0, .pair 2] [.pair 1, .pair 3] = .ok [] ∧
    listEq sample 9 [.pair 0, .pair 2] [.pair 1, .pair 1] = .ok true := by decide +kernel

/-! ### Changes -/

private theorem set_some {h h' : Heap} {a : Nat} {x y : Item} (hset : set h a x y = .ok h') :
    a < h.length ∧ h' = h.set a (x, y) := by
  unfold Verif.Pair.set Py.set at hset
  split at hset
  · rename_i ha; cases hset; exact ⟨ha, rfl⟩
  · cases hset

/-- A new pair holds what it was made of, its address is a new one, and no other object changes. -/
theorem new_pair {h : Heap} {x y : Item} {s t : Tree} (hx : Content h x s) (hy : Content h y t) :
    Content (new h x y).1 (.pair (new h x y).2) (.pair s t) ∧ h.length ≤ (new h x y).2 ∧
    ∀ i u, Content h i u → Content (new h x y).1 i u ∧ ¬ Reaches h (new h x y).2 i := by
  have mono : ∀ i u, Content h i u → Content (new h x y).1 i u := by
    intro i u hi
    refine Content.mono hi (fun a p _ ha => ?_)
    show (h ++ [(x, y)])[a]? = some p
    rw [List.getElem?_append_left (List.getElem?_eq_some_iff.1 ha).1]
    exact ha
  refine ⟨.pair _ x y s t ?_ (mono x s hx) (mono y t hy), Nat.le_refl _, fun i u hi => ⟨mono i u hi, ?_⟩⟩
  · show (h ++ [(x, y)])[h.length]? = _
    simp
  · intro hr
    have : ∀ i, Reaches h h.length i → ∀ u, ¬ Content h i u := by
      intro i hr
      induction hr with
      | here =>
        intro u hu
        cases hu with
        | pair _ _ _ _ _ h1 _ _ => simp at h1
      | source b z w hb _ ih =>
        intro u hu
        cases hu with
        | pair _ _ _ _ _ h1 h2 _ => rw [hb] at h1; cases h1; exact ih _ h2
      | target b z w hb _ ih =>
        intro u hu
        cases hu with
        | pair _ _ _ _ _ h1 _ h2 => rw [hb] at h1; cases h1; exact ih _ h2
    exact this i hr u hi

example : new sample (.pair 3) (.pair 1) = (sample ++ [(.pair 3, .pair 1)], 5) := rfl

/-- `set` changes what is reached through the pair, and nothing else. -/
theorem set_frame {h h' : Heap} {a : Nat} {x y : Item} (hset : set h a x y = .ok h') {i : Item}
    (hi : ¬ Reaches h a i) (t : Tree) : Content h' i t ↔ Content h i t := by
  obtain ⟨ha, rfl⟩ := set_some hset
  constructor
  · intro hc
    induction hc with
    | none => exact .none
    | int n => exact .int n
    | str n => exact .str n
    | uni n => exact .uni n
    | pair b z w s u hb _ _ h1 h2 =>
      have hne : a ≠ b := by rintro rfl; exact hi .here
      rw [List.getElem?_set_ne hne] at hb
      exact .pair b z w s u hb (h1 (fun g => hi (.source b z w hb g))) (h2 (fun g => hi (.target b z w hb g)))
  · intro hc
    refine Content.mono hc (fun b p hr hb => ?_)
    have hne : a ≠ b := by rintro rfl; exact hi hr
    rw [List.getElem?_set_ne hne]; exact hb

/-- After `set` the pair holds the new objects. -/
theorem set_content {h h' : Heap} {a : Nat} {x y : Item} (hset : set h a x y = .ok h') {s t : Tree}
    (hx : Content h x s) (hy : Content h y t) (hxa : ¬ Reaches h a x) (hya : ¬ Reaches h a y) :
    Content h' (.pair a) (.pair s t) := by
  have h1 := (set_frame hset hxa s).2 hx
  have h2 := (set_frame hset hya t).2 hy
  obtain ⟨ha, rfl⟩ := set_some hset
  exact .pair a x y s t (by simp [ha]) h1 h2

private theorem reaches_none (h : Heap) (a : Nat) : ¬ Reaches h a .none := by rintro ⟨⟩
private theorem reaches_int (h : Heap) (a : Nat) (n : Int) : ¬ Reaches h a (.int n) := by rintro ⟨⟩

/-- Pair 3 holds pair 0, so that it changes with pair 0; pair 1 does not. -/
example : ∃ h', set sample 0 .none (.int 7) = .ok h' ∧ Content h' (.pair 3) (.pair (.pair .none (.int 7)) (.int 3)) ∧
    Content h' (.pair 1) leaf := by
  have hset : set sample 0 .none (.int 7) = .ok (sample.set 0 (.none, .int 7)) := rfl
  refine ⟨_, hset, .pair 3 (.pair 0) (.int 3) _ _ rfl (set_content hset .none (.int 7) (reaches_none _ _) (reaches_int _ _ _)) (.int 3), ?_⟩
  refine (set_frame hset (fun hr => ?_) leaf).2 sample1
  generalize hj : Item.pair 1 = j at hr
  cases hr with
  | here => cases hj
  | source b x y hb hr => cases hj; simp [sample] at hb; obtain ⟨rfl, rfl⟩ := hb; cases hr
  | target b x y hb hr => cases hj; simp [sample] at hb; obtain ⟨rfl, rfl⟩ := hb; cases hr

/-- Unpacking gives the source and then the target, as they were last set. -/
theorem unpacked {h h' : Heap} {a : Nat} {x y : Item} (hset : set h a x y = .ok h') :
    iter h' a = .ok [x, y] ∧ iter (new h x y).1 (new h x y).2 = .ok [x, y] := by
  obtain ⟨ha, rfl⟩ := set_some hset
  refine ⟨by simp [iter, Py.get, ha, bind, Except.bind, pure, Except.pure], ?_⟩
  simp [iter, new, Py.get, bind, Except.bind, pure, Except.pure]

private theorem reaches_depth {h : Heap} {a : Nat} {i : Item} (hr : Reaches h a i) : ∀ t, Content h i t →
    ∃ u, Content h (.pair a) u ∧ u.depth ≤ t.depth := by
  induction hr with
  | here => intro t ht; exact ⟨t, ht, Nat.le_refl _⟩
  | source b z w hb _ ih =>
    intro t ht
    cases ht with
    | pair _ _ _ s u h1 h2 _ =>
      rw [hb] at h1; cases h1
      obtain ⟨v, hv, hd⟩ := ih s h2
      exact ⟨v, hv, by simp [Tree.depth]; omega⟩
  | target b z w hb _ ih =>
    intro t ht
    cases ht with
    | pair _ _ _ s u h1 _ h2 =>
      rw [hb] at h1; cases h1
      obtain ⟨v, hv, hd⟩ := ih u h2
      exact ⟨v, hv, by simp [Tree.depth]; omega⟩

/-- `Pair(*pair)` is another pair with the same content, and a later `set` of one of the two leaves the other as it is. -/
theorem copied {h h' : Heap} {a b : Nat} {t : Tree} (ht : Content h (.pair a) t) (hc : copy h a = .ok (h', b)) :
    b ≠ a ∧ Content h' (.pair a) t ∧ Content h' (.pair b) t ∧
    (∀ x y h2, set h' a x y = .ok h2 → Content h2 (.pair b) t) ∧
    (∀ x y h2, set h' b x y = .ok h2 → Content h2 (.pair a) t) := by
  cases ht with
  | pair _ x y s u ha hx hy =>
    simp only [copy, iter, get_some ha, bind, Except.bind, pure, Except.pure] at hc
    cases hc
    have hal := (List.getElem?_eq_some_iff.1 ha).1
    obtain ⟨n1, _, n3⟩ := new_pair hx hy
    have hpa := n3 (.pair a) _ (.pair a x y s u ha hx hy)
    refine ⟨by simp; omega, hpa.1, n1, ?_, ?_⟩
    · intro z w h2 hset
      refine (set_frame hset ?_ _).2 n1
      have hxy : ∀ i v, Content (h ++ [(x, y)]) i v → v.depth < (Tree.pair s u).depth → ¬ Reaches (h ++ [(x, y)]) a i := by
        intro i v hv hd hr
        obtain ⟨v', hv', hd'⟩ := reaches_depth hr v hv
        have := Content.unique hv' hpa.1
        subst this
        omega
      intro hr
      generalize hj : Item.pair h.length = j at hr
      cases hr with
      | here => injection hj with hj; omega
      | source b z w hb hr =>
        injection hj with hj; subst hj
        simp at hb
        obtain ⟨rfl, rfl⟩ := hb
        exact hxy x s (n3 x s hx).1 (by simp [Tree.depth]) hr
      | target b z w hb hr =>
        injection hj with hj; subst hj
        simp at hb
        obtain ⟨rfl, rfl⟩ := hb
        exact hxy y u (n3 y u hy).1 (by simp [Tree.depth]) hr
    · intro z w h2 hset
      refine (set_frame hset ?_ _).2 hpa.1
      intro hr
      obtain ⟨v, hv, hd⟩ := reaches_depth hr _ hpa.1
      have := Content.unique hv n1
      -- what is reached from pair a is reached in h, where the new address is that of no pair
      have back : ∀ i, Reaches (h ++ [(x, y)]) h.length i → ∀ v, Content h i v → False := by
        intro i hr
        induction hr with
        | here =>
          intro v hv
          cases hv with
          | pair _ _ _ _ _ h1 _ _ => simp at h1
        | source b z w hb _ ih =>
          intro v hv
          cases hv with
          | pair _ _ _ _ _ h1 h2 _ =>
            rw [List.getElem?_append_left (List.getElem?_eq_some_iff.1 h1).1, h1] at hb
            cases hb; exact ih _ h2
        | target b z w hb _ ih =>
          intro v hv
          cases hv with
          | pair _ _ _ _ _ h1 _ h2 =>
            rw [List.getElem?_append_left (List.getElem?_eq_some_iff.1 h1).1, h1] at hb
            cases hb; exact ih _ h2
      exact back _ hr _ (.pair a x y s u ha hx hy)

example : copy sample 3 = .ok (sample ++ [(.pair 0, .int 3)], 5) := by decide +kernel

/-! ### Printing -/

/-- repr of an object is a text that depends on its content only and tells the content exactly: two objects have the same repr
only if all strings, numbers and nestings are the same (a byte string is not a unicode string here). -/
theorem repr_exact {h h' : Heap} {i j : Item} {s t : Tree} (hi : Content h i s) (hj : Content h' j t) (limit : Nat)
    (hs : s.depth ≤ limit) (ht : t.depth ≤ limit) :
    ∃ a b, repr h limit i = .ok a ∧ repr h' limit j = .ok b ∧ (a = b ↔ s = t) := by
  refine ⟨_, _, repr_shown hi limit hs, repr_shown hj limit ht, ?_, by rintro rfl; rfl⟩
  intro hab
  have := shown_inj s t [] [] (by simp) (by simp) (by simpa using hab)
  exact this.1

/-- repr of a byte string stands between single quotes, unless it has single quotes and no double quotes. -/
theorem repr_quotes (h : Heap) (limit : Nat) (s : List (Fin 256)) :
    ∃ q w, repr h limit (.str s) = .ok (q :: (w ++ [q])) ∧
      (39 ∈ s ∧ 34 ∉ s → q = '"') ∧ (39 ∉ s ∨ 34 ∈ s → q = '\'') := by
  have h39 : 39 ∈ s.map Fin.val ↔ (39 : Fin 256) ∈ s := by
    rw [List.mem_map]
    exact ⟨fun ⟨x, hx, e⟩ => by rwa [show x = 39 from Fin.ext e] at hx, fun h => ⟨39, h, rfl⟩⟩
  have h34 : 34 ∈ s.map Fin.val ↔ (34 : Fin 256) ∈ s := by
    rw [List.mem_map]
    exact ⟨fun ⟨x, hx, e⟩ => by rwa [show x = 34 from Fin.ext e] at hx, fun h => ⟨34, h, rfl⟩⟩
  refine ⟨quote (s.map Fin.val), _, by cases limit <;> rfl, ?_, ?_⟩
  · intro hq
    unfold quote
    exact if_pos ⟨h39.2 hq.1, fun h => hq.2 (h34.1 h)⟩
  · intro hq
    unfold quote
    exact if_neg (fun h => hq.elim (fun a => a (h39.1 h.1)) (fun a => h.2 (h34.2 a)))

example : repr sample 2 (.pair 3) = .ok "Pair(source=Pair(source='x', target=u'y'), target=3)".toList := by decide +kernel
example : repr [(.str (ascii "it's"), .uni "a\"b'é\n€".toList)] 1 (.pair 0) =
    .ok "Pair(source=\"it's\", target=u'a\"b\\'\\xe9\\n\\u20ac')".toList := by decide +kernel
example : repr [(.int 9223372036854775808, .int (-5))] 1 (.pair 0) =
    .ok "Pair(source=9223372036854775808L, target=-5)".toList := by decide +kernel

/-- repr of pairs nested deeper than the limit: RuntimeError. -/
theorem repr_too_deep {h : Heap} {i : Item} {t : Tree} (hi : Content h i t) (limit : Nat) (hd : limit < t.depth) :
    repr h limit i = .error .fuel := repr_deep hi limit hd

example : repr sample 1 (.pair 3) = .error .fuel := by decide +kernel

open Classical in
/-- str of a pair succeeds if and only if the unicode strings in it are ASCII; otherwise there is a UnicodeError. -/
theorem str_succeeds {h : Heap} {i : Item} {t : Tree} (hi : Content h i t) (limit : Nat) (hd : t.depth ≤ limit) :
    if ∀ u, Occurs u t → ∀ c ∈ u, c.toNat < 128 then ∃ a, str h limit i = .ok a
    else str h limit i = .error .unicodeError := by
  rw [str_strOf hi limit hd]
  have key : ∀ t : Tree, (∃ a, strOf t = some a) ↔ ∀ u, Occurs u t → ∀ c ∈ u, c.toNat < 128 := by
    intro t
    induction t with
    | none => exact ⟨fun _ u hu => (by cases hu), fun _ => ⟨_, rfl⟩⟩
    | int n => exact ⟨fun _ u hu => (by cases hu), fun _ => ⟨_, rfl⟩⟩
    | str n => exact ⟨fun _ u hu => (by cases hu), fun _ => ⟨_, rfl⟩⟩
    | uni w =>
      constructor
      · rintro ⟨a, ha⟩ u hu c hc
        cases hu
        unfold strOf at ha
        split at ha
        · rename_i hall; rw [List.all_eq_true] at hall; simpa using hall c hc
        · cases ha
      · intro hall
        refine ⟨w, ?_⟩
        unfold strOf
        rw [if_pos]
        rw [List.all_eq_true]
        intro c hc; simpa using hall w .here c hc
    | pair s t ih1 ih2 =>
      have hst : (∀ u, Occurs u (.pair s t) → ∀ c ∈ u, c.toNat < 128) ↔
          (∀ u, Occurs u s → ∀ c ∈ u, c.toNat < 128) ∧ (∀ u, Occurs u t → ∀ c ∈ u, c.toNat < 128) := by
        constructor
        · intro g; exact ⟨fun u hu => g u (.source _ _ hu), fun u hu => g u (.target _ _ hu)⟩
        · rintro ⟨g1, g2⟩ u hu
          cases hu with
          | source _ _ hu => exact g1 u hu
          | target _ _ hu => exact g2 u hu
      rw [hst, ← ih1, ← ih2]
      constructor
      · rintro ⟨a, ha⟩
        simp only [strOf] at ha
        rcases h1 : strOf s with _ | b
        · rw [h1] at ha; cases ha
        · rcases h2 : strOf t with _ | c
          · rw [h1, h2] at ha; cases ha
          · exact ⟨⟨b, rfl⟩, ⟨c, rfl⟩⟩
      · rintro ⟨⟨b, hb⟩, ⟨c, hc⟩⟩
        exact ⟨framed b c, by simp only [strOf, hb, hc]⟩
  split
  · rename_i hall
    obtain ⟨a, ha⟩ := (key t).2 hall
    exact ⟨a, by rw [ha]⟩
  · rename_i hall
    rcases hs : strOf t with _ | a
    · rfl
    · exact absurd ((key t).1 ⟨a, hs⟩) hall

example : str sample 2 (.pair 3) = .ok "Pair(source=Pair(source=x, target=y), target=3)".toList := by decide +kernel
example : str [(.int 1, .uni "é".toList)] 1 (.pair 0) = .error .unicodeError := by decide +kernel

/-- str, unlike repr, does not tell the content: pairs of other kinds and of other texts have the same str. -/
theorem str_ambiguous :
    (∃ h, str h 1 (.pair 0) = str h 1 (.pair 1) ∧ (∃ r, str h 1 (.pair 0) = .ok r) ∧ eq h 1 (.pair 0) (.pair 1) = .ok (some false) ∧
      (∃ m n, h[0]? = some (.int m, .int n))) ∧
    (∃ h, str h 1 (.pair 0) = str h 1 (.pair 1) ∧ (∃ r, str h 1 (.pair 0) = .ok r) ∧ eq h 1 (.pair 0) (.pair 1) = .ok (some false) ∧
      (∃ s t s' t', h[0]? = some (.str s, .str t) ∧ h[1]? = some (.str s', .str t'))) := by
  constructor
  · exact ⟨[(.int 1, .int 2), (.str (ascii "1"), .str (ascii "2"))], by decide +kernel,
      ⟨"Pair(source=1, target=2)".toList, by decide +kernel⟩, by decide +kernel, ⟨1, 2, rfl⟩⟩
  · exact ⟨[(.str (ascii "a, target=b"), .str (ascii "c")), (.str (ascii "a"), .str (ascii "b, target=c"))], by decide +kernel,
      ⟨"Pair(source=a, target=b, target=c)".toList, by decide +kernel⟩, by decide +kernel, ⟨_, _, _, _, rfl, rfl⟩⟩

end Verif.Props.Pair
