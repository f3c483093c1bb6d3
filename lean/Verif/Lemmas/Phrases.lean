import Verif.Spec.Phrases
import Verif.Props.GraphPair

/-! Lemmas for C73. -/
namespace Verif.Phrases
open Verif Verif.Spec.Phrases
set_option linter.unusedSectionVars false

theorem joinWith_eq (d : Text) (ts : List Text) : joinWith d ts = d.intercalate ts := by
  induction ts with
  | nil => rfl
  | cons t ts ih =>
    cases ts with
    | nil => simp [joinWith]
    | cons u us => rw [joinWith, ih, List.intercalate_cons_cons, List.append_assoc]; simp

theorem join_eq (ts : List Text) : DaesoGraph.join ts = [' '].intercalate ts := by
  induction ts with
  | nil => rfl
  | cons t ts ih =>
    cases ts with
    | nil => simp [DaesoGraph.join]
    | cons u us => rw [DaesoGraph.join, ih, List.intercalate_cons_cons]; simp; simp

theorem tokenString_eq (g : DaesoGraph.DG String) (n : String) : tokenString g n = phrase g n := by
  unfold tokenString phrase
  rcases DaesoGraph.nodeTokens g n with e | v
  · rfl
  · cases v <;> simp [DaesoGraph.getNodeTokenString, join_eq, Spec.Terminals.tokenList]

theorem columns_eq (verbose : Bool) (p : Pair) (s t r : String) : columns verbose p ((s, t), r) = row verbose p s t r := by
  cases verbose <;> simp [columns, row, tokenString_eq]

theorem line_full {d : Text} (hd : ∀ c ∈ d, c.toNat < 128) {cs : List (Option Text)} (h : Full cs) :
    line d cs = .ok (d.intercalate (cs.map fun c => c.getD [])) := by
  have h1 : cs.all Option.isSome = true := by rw [List.all_eq_true]; exact h
  have h2 : (d.all fun c => decide (c.toNat < 128)) = true := by rw [List.all_eq_true]; simpa using hd
  rw [line, h1, if_pos rfl, h2, if_pos rfl, joinWith_eq]

theorem line_gap {d : Text} {cs : List (Option Text)} (h : ¬ Full cs) : line d cs = .error .typeError := by
  have h1 : ¬ cs.all Option.isSome = true := by rw [List.all_eq_true]; exact h
  rw [line, if_neg h1]

/-- What is printed of a list of rows, and the exception. -/
def outcome (d : Text) (rows : List (List (Option Text))) : Text × Option Err :=
  (table d (texts (rows.takeWhile fun r => decide (Full r))), if ∀ r ∈ rows, Full r then none else some .typeError)

theorem takeWhile_self {rows : List (List (Option Text))} (h : ∀ r ∈ rows, Full r) :
    rows.takeWhile (fun r => decide (Full r)) = rows := by
  induction rows with
  | nil => rfl
  | cons r rs ih => simp [h r (by simp), ih fun r hr => h r (List.mem_cons_of_mem _ hr)]

theorem outcome_append (d : Text) (rows rows' : List (List (Option Text))) :
    outcome d (rows ++ rows') = andThen (outcome d rows) (outcome d rows') := by
  by_cases h : ∀ r ∈ rows, Full r
  · have h1 : rows.takeWhile (fun r => decide (Full r)) = rows := by
      exact takeWhile_self h
    have h2 : (rows ++ rows').takeWhile (fun r => decide (Full r)) = rows ++ rows'.takeWhile (fun r => decide (Full r)) := by
      rw [List.takeWhile_append_of_pos]; simpa using h
    have h3 : (∀ r ∈ rows ++ rows', Full r) ↔ ∀ r ∈ rows', Full r := by
      constructor
      · intro g r hr; exact g r (List.mem_append_right _ hr)
      · intro g r hr
        rcases List.mem_append.mp hr with hr | hr
        · exact h r hr
        · exact g r hr
    simp only [outcome, h1, h2, if_pos h, andThen, texts, List.map_append, table, List.flatMap_append]
    simp only [h3]
  · have h2 : (rows ++ rows').takeWhile (fun r => decide (Full r)) = rows.takeWhile (fun r => decide (Full r)) := by
      clear * - h
      induction rows with
      | nil => exact absurd (by simp) h
      | cons r rs ih =>
        by_cases hr : Full r
        · have : ¬ ∀ r ∈ rs, Full r := fun g => h (by
            intro x hx
            rcases List.mem_cons.mp hx with rfl | hx
            · exact hr
            · exact g x hx)
          simp [hr, ih this]
        · simp [hr]
    have h3 : ¬ ∀ r ∈ rows ++ rows', Full r := fun g => h fun r hr => g r (List.mem_append_left _ hr)
    simp only [outcome, h2, if_neg h, if_neg h3, andThen]

theorem outcome_nil (d : Text) : outcome d [] = ([], none) := by simp [outcome, table, texts]

theorem printAll_eq {d : Text} (hd : ∀ c ∈ d, c.toNat < 128) (verbose : Bool) (p : Pair) (l : List ((String × String) × String)) :
    printAll d verbose p l = outcome d (l.map fun x => row verbose p x.1.1 x.1.2 x.2) := by
  induction l with
  | nil => rw [printAll, List.map_nil, outcome_nil]
  | cons x l ih =>
    obtain ⟨⟨s, t⟩, r⟩ := x
    rw [printAll, columns_eq, List.map_cons]
    change _ = outcome d ([row verbose p s t r] ++ _)
    rw [outcome_append]
    by_cases h : Full (row verbose p s t r)
    · rw [line_full hd h, ih]
      simp [outcome, h, table, texts]
    · rw [line_gap h]
      simp [outcome, h, table, texts, andThen]

theorem andThen_assoc (a b c : Text × Option Err) : andThen (andThen a b) c = andThen a (andThen b c) := by
  rcases a with ⟨a, _ | e⟩ <;> rcases b with ⟨b, _ | e'⟩ <;> simp [andThen]

theorem andThen_nil (a : Text × Option Err) : andThen a ([], none) = a := by
  rcases a with ⟨a, _ | e⟩ <;> simp [andThen]

theorem main_append (d : Text) (verbose : Bool) (fs gs : List (Py (List Pair))) :
    main d verbose (fs ++ gs) = andThen (main d verbose fs) (main d verbose gs) := by
  induction fs with
  | nil => rcases h : main d verbose gs with ⟨a, _ | e⟩ <;> simp [main, andThen, h]
  | cons f fs ih => rw [List.cons_append, main, main, ih, andThen_assoc]

theorem extractPairs_append (d : Text) (verbose : Bool) (ps qs : List Pair) :
    extractPairs d verbose (ps ++ qs) = andThen (extractPairs d verbose ps) (extractPairs d verbose qs) := by
  induction ps with
  | nil => rcases h : extractPairs d verbose qs with ⟨a, _ | e⟩ <;> simp [extractPairs, andThen, h]
  | cons p ps ih => rw [List.cons_append, extractPairs, extractPairs, ih, andThen_assoc]

theorem main_ok (d : Text) (verbose : Bool) (cs : List (List Pair)) :
    main d verbose (cs.map Except.ok) = extractPairs d verbose cs.flatten := by
  induction cs with
  | nil => rfl
  | cons c cs ih => rw [List.map_cons, main, ih, List.flatten_cons, extractPairs_append]; rfl

/-- Cutting at a character that the first parts lack. -/
theorem cut {c : Char} {a a' r r' : Text} (h : c ∉ a) (h' : c ∉ a') (e : a ++ c :: r = a' ++ c :: r') : a = a' ∧ r = r' := by
  induction a generalizing a' with
  | nil =>
    cases a' with
    | nil => simpa using e
    | cons x a' => simp at e; exact absurd (by simp [e.1]) h'
  | cons x a ih =>
    cases a' with
    | nil => simp at e; exact absurd (by simp [e.1]) h
    | cons y a' =>
      simp only [List.cons_append, List.cons.injEq] at e
      obtain ⟨h1, h2⟩ := ih (fun hc => h (List.mem_cons_of_mem _ hc)) (fun hc => h' (List.mem_cons_of_mem _ hc)) e.2
      exact ⟨by rw [e.1, h1], h2⟩

theorem intercalate_inj {c : Char} {d : Text} : ∀ {r r' : List Text}, r ≠ [] → r' ≠ [] → (∀ x ∈ r, c ∉ x) → (∀ x ∈ r', c ∉ x) →
    (c :: d).intercalate r = (c :: d).intercalate r' → r = r'
  | [], _, h, _, _, _, _ => absurd rfl h
  | _, [], _, h, _, _, _ => absurd rfl h
  | [a], [a'], _, _, _, _, e => by simpa using e
  | [a], a' :: b' :: r', _, _, h, _, e => by
    rw [List.intercalate_cons_cons] at e
    exact absurd (by simp at e; rw [e]; simp) (h a (by simp))
  | a :: b :: r, [a'], _, _, _, h, e => by
    rw [List.intercalate_cons_cons] at e
    exact absurd (by simp at e; rw [← e]; simp) (h a' (by simp))
  | a :: b :: r, a' :: b' :: r', _, _, h, h', e => by
    rw [List.intercalate_cons_cons, List.intercalate_cons_cons, List.append_assoc, List.append_assoc, List.cons_append,
      List.cons_append] at e
    obtain ⟨e1, e2⟩ := cut (h a (by simp)) (h' a' (by simp)) e
    have e3 := intercalate_inj (r := b :: r) (r' := b' :: r') (by simp) (by simp)
      (fun x hx => h x (List.mem_cons_of_mem _ hx)) (fun x hx => h' x (List.mem_cons_of_mem _ hx)) (List.append_cancel_left e2)
    rw [e1, e3]

theorem not_mem_intercalate {c : Char} {d : Text} (hd : c ∉ d) {r : List Text} (h : ∀ x ∈ r, c ∉ x) : c ∉ d.intercalate r := by
  induction r with
  | nil => simp
  | cons a r ih =>
    cases r with
    | nil => simpa using h
    | cons b r =>
      rw [List.intercalate_cons_cons]
      simp only [List.mem_append, not_or]
      exact ⟨⟨h a (by simp), hd⟩, ih fun x hx => h x (List.mem_cons_of_mem _ hx)⟩

theorem table_cons (d : Text) (r : List Text) (rs : List (List Text)) :
    table d (r :: rs) = d.intercalate r ++ '\n' :: table d rs := by simp [table]

end Verif.Phrases
