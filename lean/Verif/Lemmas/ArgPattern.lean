import Verif.Lemmas.Base
import Verif.Spec.CommandLine

/-! The regular expressions of `argparse`. -/
set_option linter.unusedSectionVars false
namespace Verif.Argparse
open Verif Verif.Spec.CommandLine

theorem mem_down {n k : Nat} : k ∈ down n ↔ k ≤ n := by
  induction n with
  | zero => simp [down]
  | succ n ih => simp only [down, List.mem_cons, ih]; omega

/-- The first number from `n` down for which `f`. -/
theorem down_first {β : Type} (f : Nat → Option β) {n k : Nat} {b : β} (hk : k ≤ n) (hf : f k = some b)
    (hno : ∀ j, k < j → j ≤ n → f j = none) : (down n).findSome? f = some b := by
  induction n with
  | zero => obtain rfl : k = 0 := by omega
            simp [down, hf]
  | succ n ih =>
    rw [down, List.findSome?_cons]
    by_cases h : k = n + 1
    · subst h; rw [hf]
    · rw [hno (n + 1) (by omega) le_rfl]
      exact ih (by omega) fun j h1 h2 => hno j h1 (by omega)

theorem mem_seqLens {p : Piece} {ps : List Piece} {k : List Kind} {n : Nat} :
    n ∈ seqLens (p :: ps) k ↔ ∃ i ∈ p.lens k, ∃ j ∈ seqLens ps (k.drop i), n = i + j := by
  simp only [seqLens, List.mem_flatMap, List.mem_map]
  exact ⟨fun ⟨i, hi, j, hj, e⟩ => ⟨i, hi, j, hj, e.symm⟩, fun ⟨i, hi, j, hj, e⟩ => ⟨i, hi, j, hj, e.symm⟩⟩

/-- The number of arguments. -/
def countA (k : List Kind) : Nat := k.count .A

theorem countA_take (k : List Kind) (i j : Nat) : countA (k.take (i + j)) = countA (k.take i) + countA ((k.drop i).take j) := by
  rw [countA, countA, countA, ← List.count_append, List.take_add]

theorem run_le (f : Kind → Bool) (k : List Kind) : run f k ≤ k.length := by
  rw [run]; exact (List.takeWhile_prefix f).length_le

theorem take_run (f : Kind → Bool) (k : List Kind) {n : Nat} (h : n ≤ run f k) : ∀ x ∈ k.take n, f x = true := by
  intro x hx
  have h1 : k.take (run f k) = k.takeWhile f := by
    rw [run]; exact (List.prefix_iff_eq_take.mp (List.takeWhile_prefix f)).symm
  have h2 : x ∈ k.take (run f k) := List.take_subset_take_left k h hx
  rw [h1] at h2
  exact List.all_eq_true.mp (List.all_takeWhile) x h2

/-- What a piece can match. -/
theorem lens_spec {p : Piece} {k : List Kind} {n : Nat} (h : n ∈ p.lens k) :
    n ≤ k.length ∧ (∀ x ∈ k.take n, x ≠ .O) ∧
    match p with
    | .dashes => countA (k.take n) = 0
    | .one => n = 1 ∧ countA (k.take n) = 1
    | .opt => countA (k.take n) = n ∧ n ≤ 1
    | .any => True
    | .many => countA (k.take n) = n := by
  cases p with
  | dashes =>
    rw [Piece.lens, mem_down] at h
    have := take_run _ _ h
    refine ⟨h.trans (run_le _ _), fun x hx => by have := this x hx; simp at this; simp [this], ?_⟩
    dsimp only
    rw [countA, List.count_eq_zero]
    intro hx; have := this _ hx; simp at this
  | one =>
    match k with
    | .A :: k =>
      simp only [Piece.lens, List.mem_singleton] at h
      subst h; simp [countA]
    | [] => simp [Piece.lens] at h
    | .D :: k => simp [Piece.lens] at h
    | .O :: k => simp [Piece.lens] at h
  | opt =>
    match k with
    | .A :: k =>
      simp only [Piece.lens, List.mem_cons, List.not_mem_nil, or_false] at h
      rcases h with h | h <;> subst h <;> simp [countA]
    | [] => simp only [Piece.lens, List.mem_singleton] at h; subst h; simp [countA]
    | .D :: k => simp only [Piece.lens, List.mem_singleton] at h; subst h; simp [countA]
    | .O :: k => simp only [Piece.lens, List.mem_singleton] at h; subst h; simp [countA]
  | any =>
    rw [Piece.lens, mem_down] at h
    have := take_run _ _ h
    refine ⟨h.trans (run_le _ _), fun x hx => ?_, trivial⟩
    have := this x hx
    simp at this
    rcases this with h | h <;> simp [h]
  | many =>
    rw [Piece.lens, mem_down] at h
    have h2 := take_run _ _ h
    have h1 := h.trans (run_le _ _)
    refine ⟨h1, fun x hx => ?_, ?_⟩
    · have := h2 x hx; simp at this; simp [this]
    · dsimp only
      rw [countA, List.count_eq_length.mpr]
      · simp [h1]
      · intro x hx; have := h2 x hx; simp at this; exact this.symm

/-- What a sequence can match. -/
theorem seqLens_spec {ps : List Piece} {k : List Kind} {n : Nat} (h : n ∈ seqLens ps k) :
    n ≤ k.length ∧ ∀ x ∈ k.take n, x ≠ .O := by
  induction ps generalizing k n with
  | nil => simp only [seqLens, List.mem_singleton] at h; subst h; simp
  | cons p ps ih =>
    obtain ⟨i, hi, j, hj, rfl⟩ := mem_seqLens.mp h
    obtain ⟨a1, a2, -⟩ := lens_spec hi
    obtain ⟨b1, b2⟩ := ih hj
    rw [List.length_drop] at b1
    refine ⟨by omega, fun x hx => ?_⟩
    rw [List.take_add, List.mem_append] at hx
    exact hx.elim (a2 x) (b2 x)

theorem joined_spec {m : Nat} {k : List Kind} {n : Nat} (h : n ∈ seqLens (joined m ++ [.dashes]) k) :
    countA (k.take n) = m := by
  induction m using Nat.strong_induction_on generalizing k n with
  | _ m ih =>
    match m with
    | 0 =>
      obtain ⟨i, hi, j, hj, rfl⟩ := mem_seqLens.mp h
      simp only [seqLens, List.mem_singleton] at hj
      subst hj
      exact (lens_spec hi).2.2
    | 1 =>
      obtain ⟨i, hi, j, hj, rfl⟩ := mem_seqLens.mp h
      obtain ⟨i', hi', j', hj', rfl⟩ := mem_seqLens.mp hj
      simp only [seqLens, List.mem_singleton] at hj'
      subst hj'
      have a := (lens_spec hi).2.2
      have b := (lens_spec hi').2.2
      dsimp only at a b
      rw [countA_take, a.2, Nat.add_zero, b]
    | m + 2 =>
      obtain ⟨i, hi, j, hj, rfl⟩ := mem_seqLens.mp h
      obtain ⟨i', hi', j', hj', rfl⟩ := mem_seqLens.mp hj
      have a := (lens_spec hi).2.2
      have b := (lens_spec hi').2.2
      have c := ih (m + 1) (by omega) hj'
      dsimp only at a b
      rw [countA_take, a.2, countA_take, b, c]
      omega

/-- The number of arguments that an action is given. -/
theorem pattern_count {a : Arg} {k : List Kind} {n : Nat} (h : n ∈ seqLens (pattern a) k) : Fits a.nargs (countA (k.take n)) := by
  unfold pattern at h
  by_cases hn : a.names = []
  · rw [if_pos hn] at h
    cases ha : a.nargs with
    | one =>
      rw [ha] at h
      obtain ⟨i, hi, j, hj, rfl⟩ := mem_seqLens.mp h
      have := joined_spec (m := 1) hj
      have a := (lens_spec hi).2.2
      dsimp only at a
      rw [Fits, countA_take, a, this]
    | opt =>
      rw [ha] at h
      obtain ⟨i, hi, j, hj, rfl⟩ := mem_seqLens.mp h
      obtain ⟨i', hi', j', hj', rfl⟩ := mem_seqLens.mp hj
      obtain ⟨i2, hi2, j2, hj2, rfl⟩ := mem_seqLens.mp hj'
      simp only [seqLens, List.mem_singleton] at hj2
      subst hj2
      have a := (lens_spec hi).2.2
      have b := (lens_spec hi').2.2
      have c := (lens_spec hi2).2.2
      dsimp only at a b c
      rw [Fits, countA_take, a, countA_take, b.1, Nat.add_zero, c]
      omega
    | star => trivial
    | plus =>
      rw [ha] at h
      obtain ⟨i, hi, j, hj, rfl⟩ := mem_seqLens.mp h
      obtain ⟨i', hi', j', hj', rfl⟩ := mem_seqLens.mp hj
      have b := (lens_spec hi').2.2
      dsimp only at b
      rw [Fits, countA_take, countA_take, b.2]
      omega
    | num m =>
      rw [ha] at h
      obtain ⟨i, hi, j, hj, rfl⟩ := mem_seqLens.mp h
      have a := (lens_spec hi).2.2
      dsimp only at a
      rw [Fits, countA_take, a, joined_spec hj, Nat.zero_add]
  · rw [if_neg hn] at h
    cases ha : a.nargs with
    | one =>
      rw [ha] at h
      obtain ⟨i, hi, j, hj, rfl⟩ := mem_seqLens.mp h
      simp only [seqLens, List.mem_singleton] at hj
      subst hj
      have a := (lens_spec hi).2.2
      dsimp only at a
      rw [Fits, Nat.add_zero, a.2]
    | opt =>
      rw [ha] at h
      obtain ⟨i, hi, j, hj, rfl⟩ := mem_seqLens.mp h
      simp only [seqLens, List.mem_singleton] at hj
      subst hj
      have a := (lens_spec hi).2.2
      dsimp only at a
      rw [Fits, Nat.add_zero, a.1]
      exact a.2
    | star => trivial
    | plus =>
      rw [ha] at h
      obtain ⟨i, hi, j, hj, rfl⟩ := mem_seqLens.mp h
      have a := (lens_spec hi).2.2
      dsimp only at a
      rw [Fits, countA_take, a.2]
      omega
    | num m =>
      rw [ha] at h
      dsimp only at h
      clear ha
      rw [Fits]
      induction m generalizing k n with
      | zero => simp only [List.replicate, seqLens, List.mem_singleton] at h; subst h; simp [countA]
      | succ m ih =>
        rw [List.replicate_succ] at h
        obtain ⟨i, hi, j, hj, rfl⟩ := mem_seqLens.mp h
        have a := (lens_spec hi).2.2
        dsimp only at a
        rw [countA_take, a.2, ih hj, Nat.add_comm]

/-- An option is given arguments only. -/
theorem pattern_option {a : Arg} (hn : a.names ≠ []) {k : List Kind} {n : Nat} (h : n ∈ seqLens (pattern a) k) :
    ∀ x ∈ k.take n, x = .A := by
  have key : ∀ ps : List Piece, (∀ q ∈ ps, q = .one ∨ q = .opt ∨ q = .many) → ∀ (k : List Kind) (n : Nat), n ∈ seqLens ps k →
      n ≤ k.length ∧ countA (k.take n) = n := by
    intro ps
    induction ps with
    | nil => intro _ k n h; simp only [seqLens, List.mem_singleton] at h; subst h; simp [countA]
    | cons q ps ih =>
      intro hq k n h
      obtain ⟨i, hi, j, hj, rfl⟩ := mem_seqLens.mp h
      have b := ih (fun q' h' => hq q' (List.mem_cons_of_mem _ h')) _ _ hj
      have a := lens_spec hi
      rw [List.length_drop] at b
      refine ⟨by omega, ?_⟩
      rw [countA_take, b.2]
      rcases hq q List.mem_cons_self with rfl | rfl | rfl <;> · have := a.2.2; dsimp only at this; omega
  have hp : ∀ q ∈ pattern a, q = .one ∨ q = .opt ∨ q = .many := by
    unfold pattern
    rw [if_neg hn]
    cases a.nargs <;> simp
  obtain ⟨h1, h2⟩ := key _ hp _ _ h
  have h3 : (k.take n).length = n := by simp [h1]
  have h4 : (k.take n).count Kind.A = (k.take n).length := by rw [h3]; exact h2
  exact fun x hx => (List.count_eq_length.mp h4 x hx).symm

/-- The groups that are found. -/
inductive Grouped : List Arg → List Kind → List Nat → Prop
  | nil (k : List Kind) : Grouped [] k []
  | cons (a : Arg) (l : List Arg) (k : List Kind) (n : Nat) (ns : List Nat) : n ∈ seqLens (pattern a) k →
      Grouped l (k.drop n) ns → Grouped (a :: l) k (n :: ns)

theorem matchGroups_sound {l : List Arg} {k : List Kind} {ns : List Nat} (h : matchGroups l k = some ns) : Grouped l k ns := by
  induction l generalizing k ns with
  | nil => rw [matchGroups, Option.some.injEq] at h; subst h; exact .nil k
  | cons a l ih =>
    rw [matchGroups] at h
    obtain ⟨n, hn, hm⟩ := List.exists_of_findSome?_eq_some h
    rw [Option.map_eq_some_iff] at hm
    obtain ⟨r, hr, rfl⟩ := hm
    exact .cons a l k n r hn (ih hr)

theorem matchPartial_sound (l : List Arg) (k : List Kind) :
    ∃ i ≤ l.length, Grouped (l.take i) k (matchPartial l k) := by
  rw [matchPartial]
  have : ∀ i ≤ l.length, ∃ j ≤ l.length, Grouped (l.take j) k (matchSlices l k i) := by
    intro i
    induction i with
    | zero => intro _; exact ⟨0, Nat.zero_le _, by rw [matchSlices, List.take_zero]; exact .nil k⟩
    | succ i ih =>
      intro hi
      rw [matchSlices]
      cases hm : matchGroups (l.take (i + 1)) k with
      | some r => exact ⟨i + 1, hi, matchGroups_sound hm⟩
      | none => exact ih (by omega)
  exact this _ le_rfl

theorem Grouped.length {l : List Arg} {k : List Kind} {ns : List Nat} (h : Grouped l k ns) : ns.length = l.length := by
  induction h with
  | nil => rfl
  | cons a l k n ns h1 h2 ih => simp [ih]

theorem Grouped.sum {l : List Arg} {k : List Kind} {ns : List Nat} (h : Grouped l k ns) :
    ns.sum ≤ k.length ∧ ∀ x ∈ k.take ns.sum, x ≠ .O := by
  induction h with
  | nil => simp
  | cons a l k n ns h1 h2 ih =>
    obtain ⟨a1, a2⟩ := seqLens_spec h1
    obtain ⟨b1, b2⟩ := ih
    rw [List.length_drop] at b1
    rw [List.sum_cons]
    refine ⟨by omega, fun x hx => ?_⟩
    rw [List.take_add, List.mem_append] at hx
    exact hx.elim (a2 x) (b2 x)

/-! ### Arguments in a block -/

/-- Nothing that can be given to a positional argument. -/
def Ends (r : List Kind) : Prop := r.head? ≠ some .A ∧ r.head? ≠ some .D

/-- The numbers of arguments that can be taken from `n`, in the order in which they are tried. -/
def cands : Nargs → Nat → List Nat
  | .one, n => if 1 ≤ n then [1] else []
  | .opt, n => if 1 ≤ n then [1, 0] else [0]
  | .star, n => down n
  | .plus, n => if 1 ≤ n then (down (n - 1)).map (1 + ·) else []
  | .num m, n => if m ≤ n then [m] else []

theorem takeWhile_block (f : Kind → Bool) (hf : f .A = true) (n : Nat) (r : List Kind) (hr : ∀ x, r.head? = some x → f x = false) :
    run f (List.replicate n .A ++ r) = n := by
  rw [run]
  induction n with
  | zero =>
    cases r with
    | nil => rfl
    | cons x r => simp [hr x rfl]
  | succ n ih => rw [List.replicate_succ, List.cons_append, List.takeWhile_cons, hf]; simp [ih]

theorem run_none (f : Kind → Bool) (k : List Kind) (h : ∀ x, k.head? = some x → f x = false) : run f k = 0 := by
  cases k with
  | nil => rfl
  | cons x k => simp [run, h x rfl]

theorem head_block {n : Nat} {r : List Kind} (hr : Ends r) : (List.replicate n Kind.A ++ r).head? ≠ some .D := by
  cases n with
  | zero => exact hr.2
  | succ n => simp [List.replicate_succ]

theorem dashes_block {k : List Kind} (h : k.head? ≠ some .D) : Piece.lens .dashes k = [0] := by
  rw [Piece.lens, run_none _ _ fun x hx => by
    cases x <;> simp_all]
  rfl

theorem one_block {k : List Kind} (h : k.head? ≠ some .A) : Piece.lens .one k = [] := by
  match k with
  | [] => rfl
  | .A :: k => simp at h
  | .D :: k => rfl
  | .O :: k => rfl

theorem opt_block {k : List Kind} (h : k.head? ≠ some .A) : Piece.lens .opt k = [0] := by
  match k with
  | [] => rfl
  | .A :: k => simp at h
  | .D :: k => rfl
  | .O :: k => rfl

theorem drop_block (n i : Nat) (r : List Kind) (h : i ≤ n) : (List.replicate n Kind.A ++ r).drop i = List.replicate (n - i) .A ++ r := by
  rw [List.drop_append_of_le_length (by simpa using h), List.drop_replicate]

theorem joined_block (m n : Nat) (r : List Kind) (hr : Ends r) :
    seqLens (joined m ++ [.dashes]) (List.replicate n .A ++ r) = if m ≤ n then [m] else [] := by
  induction m using Nat.strong_induction_on generalizing n with
  | _ m ih =>
    match m with
    | 0 => simp [joined, seqLens, dashes_block (head_block hr)]
    | 1 =>
      cases n with
      | zero => simp [joined, seqLens, one_block hr.1]
      | succ n =>
        have := dashes_block (head_block (n := n) hr)
        simp only [joined, List.replicate_succ, List.cons_append, List.nil_append]
        rw [seqLens, Piece.lens, List.flatMap_singleton, List.drop_succ_cons, List.drop_zero, seqLens, this]
        simp [seqLens]
    | m + 2 =>
      cases n with
      | zero => simp [joined, seqLens, one_block hr.1]
      | succ n =>
        have h1 := ih (m + 1) (by omega) n
        simp only [joined, List.cons_append, seqLens, List.replicate_succ, Piece.lens, List.flatMap_cons,
          List.flatMap_nil, List.drop_succ_cons, List.drop_zero]
        have := dashes_block (head_block (n := n) hr)
        rw [Piece.lens] at this
        rw [this]
        simp only [List.flatMap_cons, List.flatMap_nil, List.drop_zero, h1]
        by_cases h : m + 1 ≤ n
        · rw [if_pos h, if_pos (by omega)]; simp; omega
        · rw [if_neg h, if_neg (by omega)]; rfl

/-- What a positional argument can be given from a block of arguments. -/
theorem pattern_block {a : Arg} (hn : a.names = []) (n : Nat) (r : List Kind) (hr : Ends r) :
    seqLens (pattern a) (List.replicate n .A ++ r) = cands a.nargs n := by
  have hd := dashes_block (head_block (n := n) hr)
  have hany : Piece.lens .any (List.replicate n .A ++ r) = down n := by
    rw [Piece.lens, takeWhile_block _ (by rfl) n r]
    intro x hx
    rcases x with _ | _ | _
    · exact absurd hx hr.1
    · exact absurd hx hr.2
    · rfl
  unfold pattern
  rw [if_pos hn]
  cases a.nargs with
  | one =>
    have := joined_block 1 n r hr
    dsimp only
    rw [seqLens, hd, List.flatMap_singleton, List.drop_zero]
    simp only [joined, List.singleton_append] at this
    rw [this, cands]
    split <;> simp
  | opt =>
    dsimp only
    rw [seqLens, hd, List.flatMap_singleton, List.drop_zero, cands]
    cases n with
    | zero =>
      rw [List.replicate_zero, List.nil_append, seqLens, opt_block hr.1, List.flatMap_singleton, List.drop_zero, seqLens,
        dashes_block hr.2]
      simp [seqLens]
    | succ n =>
      have hd' := dashes_block (head_block (n := n) hr)
      simp only [List.replicate_succ, List.cons_append] at hd ⊢
      rw [seqLens, Piece.lens]
      simp [seqLens, hd, hd']
  | star =>
    dsimp only
    rw [seqLens, hd, List.flatMap_singleton, List.drop_zero, seqLens, hany, cands]
    simp [seqLens]
  | plus =>
    dsimp only
    rw [seqLens, hd, List.flatMap_singleton, List.drop_zero, cands]
    cases n with
    | zero => rw [List.replicate_zero, List.nil_append, seqLens, one_block hr.1]; rfl
    | succ n =>
      have hany : Piece.lens .any (List.replicate n .A ++ r) = down n := by
        rw [Piece.lens, takeWhile_block _ (by rfl) n r]
        intro x hx
        rcases x with _ | _ | _
        · exact absurd hx hr.1
        · exact absurd hx hr.2
        · rfl
      simp only [List.replicate_succ, List.cons_append]
      rw [seqLens, Piece.lens, List.flatMap_singleton, List.drop_succ_cons, List.drop_zero, seqLens, hany]
      simp [seqLens]
  | num m =>
    dsimp only
    rw [seqLens, hd, List.flatMap_singleton, List.drop_zero, joined_block m n r hr, cands]
    split <;> simp

/-- What an option can be given from a block of arguments. -/
theorem option_block {a : Arg} (hn : a.names ≠ []) (n : Nat) (r : List Kind) (hr : r.head? ≠ some .A) :
    seqLens (pattern a) (List.replicate n .A ++ r) = cands a.nargs n := by
  have hmany : ∀ n, Piece.lens .many (List.replicate n .A ++ r) = down n := by
    intro n
    rw [Piece.lens, takeWhile_block _ (by rfl) n r]
    intro x hx
    rcases x with _ | _ | _
    · exact absurd hx hr
    · rfl
    · rfl
  unfold pattern
  rw [if_neg hn]
  cases a.nargs with
  | one =>
    cases n with
    | zero => simp [seqLens, one_block hr, cands]
    | succ n => simp [seqLens, Piece.lens, cands, List.replicate_succ]
  | opt =>
    cases n with
    | zero => simp [seqLens, opt_block hr, cands]
    | succ n => simp [seqLens, Piece.lens, cands, List.replicate_succ]
  | star =>
    simp [seqLens, hmany, cands]
  | plus =>
    cases n with
    | zero => simp [seqLens, one_block hr, cands]
    | succ n =>
      dsimp only
      simp only [List.replicate_succ, List.cons_append]
      rw [seqLens, Piece.lens, List.flatMap_singleton, List.drop_succ_cons, List.drop_zero, seqLens, hmany, cands]
      simp [seqLens]
  | num m =>
    dsimp only
    rw [cands]
    induction m generalizing n with
    | zero => simp [seqLens]
    | succ m ih =>
      rw [List.replicate_succ, seqLens]
      cases n with
      | zero => rw [List.replicate_zero, List.nil_append, one_block hr]; rfl
      | succ n =>
        rw [List.replicate_succ, List.cons_append, Piece.lens, List.flatMap_singleton, List.drop_succ_cons, List.drop_zero, ih]
        by_cases h : m ≤ n
        · rw [if_pos h, if_pos (by omega)]; simp; omega
        · rw [if_neg h, if_neg (by omega)]; rfl

/-- What a positional argument can be given from `--` and a block of arguments. -/
theorem pattern_dash {a : Arg} (hn : a.names = []) (hk : a.nargs = .one ∨ a.nargs = .plus ∨ ∃ m, a.nargs = .num (m + 1)) (n : Nat) :
    seqLens (pattern a) (.D :: List.replicate n .A) = (cands a.nargs n).map (1 + ·) := by
  have he : Ends [] := by simp [Ends]
  have hd : Piece.lens .dashes (.D :: List.replicate n .A) = [1, 0] := by
    rw [Piece.lens]
    have : run (· = .D) (.D :: List.replicate n .A) = 1 := by
      cases n <;> simp [run, List.replicate_succ]
    rw [this]; rfl
  have hd' := dashes_block (head_block (n := n) he)
  have ho : Piece.lens .one (.D :: List.replicate n .A) = [] := rfl
  have hb := pattern_block hn n [] he
  rw [List.append_nil] at hb hd'
  have key : ∀ ps, seqLens (Piece.dashes :: Piece.one :: ps) (.D :: List.replicate n .A) =
      (seqLens (Piece.dashes :: Piece.one :: ps) (List.replicate n .A)).map (1 + ·) := by
    intro ps
    rw [seqLens, hd, List.flatMap_cons, List.flatMap_singleton, List.drop_zero, List.drop_succ_cons, List.drop_zero]
    rw [show seqLens (Piece.dashes :: Piece.one :: ps) (List.replicate n Kind.A) =
      (seqLens (Piece.one :: ps) (List.replicate n Kind.A)).map (0 + ·) by
        rw [seqLens, hd', List.flatMap_singleton, List.drop_zero]]
    rw [show seqLens (Piece.one :: ps) (Kind.D :: List.replicate n Kind.A) = [] by rw [seqLens, ho]; rfl]
    simp
  unfold pattern at hb ⊢
  rw [if_pos hn] at hb ⊢
  rcases hk with h | h | ⟨m, h⟩
  · rw [h] at hb ⊢; dsimp only at hb ⊢; rw [key, hb]
  · rw [h] at hb ⊢; dsimp only at hb ⊢; rw [key, hb]
  · rw [h] at hb ⊢; dsimp only at hb ⊢
    cases m with
    | zero => exact (key _).trans (by rw [← hb]; rfl)
    | succ m => exact (key _).trans (by rw [← hb]; rfl)

/-- The numbers of arguments that are given first. -/
def assign : List Nargs → Nat → Option (List Nat)
  | [], _ => some []
  | k :: l, n => (cands k n).findSome? fun i => (assign l (n - i)).map (i :: ·)

theorem findSome_congr {α β : Type} {f g : α → Option β} {l : List α} (h : ∀ x ∈ l, f x = g x) : l.findSome? f = l.findSome? g := by
  induction l with
  | nil => rfl
  | cons x l ih =>
    rw [List.findSome?_cons, List.findSome?_cons, h x List.mem_cons_self, ih fun y hy => h y (List.mem_cons_of_mem _ hy)]

theorem cands_le {k : Nargs} {n i : Nat} (h : i ∈ cands k n) : i ≤ n := by
  cases k with
  | one => simp only [cands] at h; split at h <;> simp at h; omega
  | opt => simp only [cands] at h; split at h <;> simp at h <;> omega
  | star => simpa [cands, mem_down] using h
  | plus =>
    simp only [cands] at h
    split at h
    · simp only [List.mem_map, mem_down] at h; omega
    · simp at h
  | num m => simp only [cands] at h; split at h <;> simp at h; omega

theorem matchGroups_block {l : List Arg} (hl : ∀ a ∈ l, a.names = []) (n : Nat) (r : List Kind) (hr : Ends r) :
    matchGroups l (List.replicate n .A ++ r) = assign (l.map Arg.nargs) n := by
  induction l generalizing n with
  | nil => rfl
  | cons a l ih =>
    rw [matchGroups, pattern_block (hl a List.mem_cons_self) n r hr, List.map_cons, assign]
    apply findSome_congr
    intro i hi
    rw [drop_block n i r (cands_le hi), ih fun a ha => hl a (List.mem_cons_of_mem _ ha)]

theorem fixed_cands {k : Nargs} (hk : Fixed k) {i : Nat} (hi : Fits k i) (n : Nat) : cands k n = if i ≤ n then [i] else [] := by
  cases k <;> simp_all [Fixed, Fits, cands]

theorem assign_fixed {l : List Nargs} (hl : ∀ k ∈ l, Fixed k) {ns : List Nat} (hns : List.Forall₂ Fits l ns) (n : Nat) :
    assign l n = if ns.sum ≤ n then some ns else none := by
  induction hns generalizing n with
  | nil => simp [assign]
  | @cons k i l ns h1 h2 ih =>
    rw [assign, fixed_cands (hl k List.mem_cons_self) h1]
    by_cases h : i ≤ n
    · rw [if_pos h]
      simp only [List.findSome?_cons, List.findSome?_nil, ih (fun k hk => hl k (List.mem_cons_of_mem _ hk))]
      by_cases h' : ns.sum ≤ n - i
      · rw [if_pos h', if_pos (by rw [List.sum_cons]; omega)]; rfl
      · rw [if_neg h', if_neg (by rw [List.sum_cons]; omega)]; rfl
    · rw [if_neg h, if_neg (by rw [List.sum_cons]; omega)]; rfl

/-- The first assignment of all arguments, if at most one number of arguments varies. -/
theorem assign_first {l : List Nargs} {ns : List Nat} (hns : List.Forall₂ Fits l ns) (hl : (l.filter fun k => ¬ Fixed k).length ≤ 1) :
    assign l ns.sum = some ns := by
  induction hns with
  | nil => rfl
  | @cons k i l ns h1 h2 ih =>
    rw [assign, List.sum_cons]
    by_cases hk : Fixed k
    · rw [fixed_cands hk h1, if_pos (by omega)]
      rw [List.filter_cons_of_neg (by simpa using hk)] at hl
      have : i + ns.sum - i = ns.sum := by omega
      simp only [List.findSome?_cons, this, ih hl, Option.map_some]
    · rw [List.filter_cons_of_pos (by simpa using hk)] at hl
      have hfix : ∀ k ∈ l, Fixed k := by
        intro k hk
        by_contra hc
        have : k ∈ l.filter fun k => ¬ Fixed k := by simpa using ⟨hk, hc⟩
        have := List.length_pos_of_mem this
        simp only [List.length_cons] at hl
        omega
      have hf : ∀ j, (assign l (i + ns.sum - j)).map (j :: ·) = if ns.sum ≤ i + ns.sum - j then some (j :: ns) else none := by
        intro j; rw [assign_fixed hfix h2]; split <;> rfl
      simp only [hf]
      cases k with
      | one => simp [Fixed] at hk
      | num m => simp [Fixed] at hk
      | star =>
        rw [cands]
        refine down_first _ (k := i) (by omega) ?_ ?_
        · rw [if_pos (by omega)]
        · intro j h1 h2; rw [if_neg (by omega)]
      | plus =>
        rw [Fits] at h1
        rw [cands, if_pos (by omega), List.findSome?_map]
        refine down_first _ (k := i - 1) (by omega) ?_ ?_
        · simp only [Function.comp]
          rw [if_pos (by omega)]
          have : 1 + (i - 1) = i := by omega
          rw [this]
        · intro j h1 h2
          simp only [Function.comp]
          rw [if_neg (by omega)]
      | opt =>
        rw [Fits] at h1
        rw [cands]
        by_cases h : 1 ≤ i + ns.sum
        · rw [if_pos h, List.findSome?_cons]
          by_cases hi : i = 1
          · rw [if_pos (by omega)]; subst hi; rfl
          · obtain rfl : i = 0 := by omega
            rw [if_neg (by omega)]
            simp
        · rw [if_neg h]
          obtain rfl : i = 0 := by omega
          simp

end Verif.Argparse
