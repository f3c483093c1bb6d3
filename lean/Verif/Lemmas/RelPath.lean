import Verif.Model.RelPath
import Verif.Lemmas.PosixPath
import Verif.Spec.RelPath

/-! Lemmas about real and relative paths. -/
namespace Verif.RelPath
open Verif Verif.Etree Verif.Spec.RelPath

set_option linter.unusedSectionVars false

/-! ### Names -/

theorem split_ne (p : Text) : split p ≠ [] := by
  cases p with
  | nil => simp [split]
  | cons c p =>
    unfold split
    split
    · simp
    · split <;> simp

theorem split_slash (a b : Text) : split (a ++ '/' :: b) = split a ++ split b := by
  induction a with
  | nil => simp [split]
  | cons c a ih =>
    rw [List.cons_append, split, split, ih]
    by_cases h : c = '/'
    · simp [h]
    · simp only [h, if_false]
      cases hs : split a with
      | nil => exact absurd hs (split_ne a)
      | cons n l => rfl

theorem names_nil : names [] = [] := by simp [names, split]

theorem names_slash (a b : Text) : names (a ++ '/' :: b) = names a ++ names b := by
  unfold names
  rw [split_slash, List.filter_append]

theorem split_noSlash {n : Text} (h : '/' ∉ n) : split n = [n] := by
  induction n with
  | nil => rfl
  | cons c n ih =>
    have hc : c ≠ '/' := by rintro rfl; exact h (by simp)
    rw [split, if_neg hc, ih (fun h' => h (by simp [h']))]

theorem names_proper {n : Text} (h : Proper n) : names n = [n] := by
  unfold names
  rw [split_noSlash h.2]
  simp [h.1]

theorem split_mem (p : Text) : ∀ n ∈ split p, '/' ∉ n := by
  induction p with
  | nil => simp [split]
  | cons c p ih =>
    intro n hn
    rw [split] at hn
    split at hn
    · rcases List.mem_cons.1 hn with rfl | hn
      · simp
      · exact ih n hn
    · rename_i hc
      split at hn
      · rename_i hs; exact absurd hs (split_ne p)
      · rename_i m l hs
        rw [hs] at ih
        rcases List.mem_cons.1 hn with rfl | hn
        · intro h
          rcases List.mem_cons.1 h with h | h
          · exact hc h.symm
          · exact ih m (by simp) h
        · exact ih n (by simp [hn])

theorem names_mem (p : Text) : ∀ n ∈ names p, Proper n := by
  intro n hn
  unfold names at hn
  rw [List.mem_filter] at hn
  exact ⟨by simpa using hn.2, split_mem p n hn.1⟩

theorem names_join (a b : Text) (hb : isAbs b = false) : names (PosixPath.join a b) = names a ++ names b := by
  unfold isAbs at hb
  simp only [decide_eq_false_iff_not] at hb
  unfold PosixPath.join
  rw [if_neg hb]
  split
  · rename_i h
    rcases h with rfl | h
    · simp [names_nil]
    · have := List.dropLast_append_getLast? (l := a) '/' (by rw [h]; rfl)
      rw [← this, List.append_assoc, List.singleton_append, names_slash, names_slash, names_nil, List.append_nil]
  · rw [names_slash]

theorem names_render_aux (l : List Text) (h : ∀ n ∈ l, Proper n) : ∀ a : Text,
    names (a ++ l.flatMap fun n => '/' :: n) = names a ++ l := by
  induction l with
  | nil => intro a; simp
  | cons n l ih =>
    intro a
    rw [List.flatMap_cons, List.cons_append, names_slash, ih (fun m hm => h m (by simp [hm])), names_proper (h n (by simp))]
    rfl

theorem names_render {l : List Text} (h : ∀ n ∈ l, Proper n) : names (render l) = l := by
  unfold render
  split
  · rename_i hl
    rw [hl]
    decide
  · have := names_render_aux l h []
    simpa [names_nil] using this

theorem isAbs_render (l : List Text) : isAbs (render l) = true := by
  unfold render
  split
  · rfl
  · cases l with
    | nil => contradiction
    | cons n l => rfl

theorem proper_head {n : Text} (h : Proper n) : isAbs n = false := by
  unfold isAbs
  simp only [decide_eq_false_iff_not]
  exact PosixPath.noSlash_head h.2

/-- A relative path built from names. -/
theorem join_names (l : List Text) (hl : ∀ n ∈ l, Proper n) : ∀ a : Text, a ≠ [] → isAbs a = false →
    names (l.foldl PosixPath.join a) = names a ++ l ∧ isAbs (l.foldl PosixPath.join a) = false := by
  induction l with
  | nil => intro a _ h; simpa using h
  | cons n l ih =>
    intro a ha hab
    rw [List.foldl_cons]
    have hn := hl n (by simp)
    have h1 : PosixPath.join a n ≠ [] ∧ isAbs (PosixPath.join a n) = false := by
      cases a with
      | nil => exact absurd rfl ha
      | cons c a =>
        unfold PosixPath.join
        rw [if_neg (by have := proper_head hn; unfold isAbs at this; simpa using this)]
        split
        · exact ⟨by simp, by simpa [isAbs] using hab⟩
        · exact ⟨by simp, by simpa [isAbs] using hab⟩
    obtain ⟨h2, h3⟩ := ih (fun m hm => hl m (by simp [hm])) _ h1.1 h1.2
    refine ⟨?_, h3⟩
    rw [h2, names_join _ _ (proper_head hn), names_proper hn]
    simp

/-- The text of a relative path begins as its first name and ends as its last. -/
theorem join_ends (l : List Text) (hl : ∀ n ∈ l, Proper n) : ∀ a : Text, Proper a ∨ (a ≠ [] ∧ a.getLast? ≠ some '/') →
    (l.foldl PosixPath.join a).head? = a.head? ∧
      ((l.foldl PosixPath.join a).getLast? = a.getLast? ∨ ∃ n ∈ l, (l.foldl PosixPath.join a).getLast? = n.getLast?) := by
  induction l with
  | nil => intro a _; exact ⟨rfl, .inl rfl⟩
  | cons n l ih =>
    intro a ha
    have hn := hl n (by simp)
    have ha1 : a ≠ [] := by rcases ha with h | h; exacts [h.1, h.1]
    have ha2 : a.getLast? ≠ some '/' := by
      rcases ha with h | h
      · exact PosixPath.noSlash_last h.2
      · exact h.2
    have hj : PosixPath.join a n = a ++ '/' :: n := by
      unfold PosixPath.join
      rw [if_neg (PosixPath.noSlash_head hn.2), if_neg (by simp [ha1, ha2])]
    rw [List.foldl_cons, hj]
    have hlast : (a ++ '/' :: n).getLast? = n.getLast? := by
      cases hn' : n.getLast? with
      | none => exact absurd (List.getLast?_eq_none_iff.1 hn') hn.1
      | some c => simp [List.getLast?_append, List.getLast?_cons, hn']
    have hhead : (a ++ '/' :: n).head? = a.head? := by
      cases a with
      | nil => exact absurd rfl ha1
      | cons c a => rfl
    obtain ⟨h1, h2⟩ := ih (fun m hm => hl m (by simp [hm])) (a ++ '/' :: n)
      (.inr ⟨by simp, by rw [hlast]; exact PosixPath.noSlash_last hn.2⟩)
    refine ⟨h1.trans hhead, .inr ?_⟩
    rcases h2 with h2 | ⟨m, hm, h2⟩
    · exact ⟨n, by simp, h2.trans hlast⟩
    · exact ⟨m, by simp [hm], h2⟩

theorem strip_ends {ws : Char → Bool} {x : Text} (h1 : ∀ c, x.head? = some c → ws c = false)
    (h2 : ∀ c, x.getLast? = some c → ws c = false) : strip ws x = x := by
  have hdrop : ∀ y : Text, (∀ c, y.head? = some c → ws c = false) → y.dropWhile ws = y := by
    intro y hy
    cases y with
    | nil => rfl
    | cons c y => rw [List.dropWhile_cons, hy c rfl]; rfl
  unfold strip
  rw [hdrop x h1, hdrop x.reverse (by intro c hc; exact h2 c (by rw [List.getLast?_eq_head?_reverse]; exact hc)),
    List.reverse_reverse]

/-! ### Places -/

variable {link : List Text → Option Text}

theorem _root_.Verif.Spec.RelPath.Place.nil : Place link [] := by
  intro l1 n l2 h
  simp at h

theorem _root_.Verif.Spec.RelPath.Place.prefix {a b : List Text} (h : Place link (a ++ b)) : Place link a := by
  intro l1 n l2 e
  exact h l1 n (l2 ++ b) (by rw [e]; simp)

theorem _root_.Verif.Spec.RelPath.Place.snoc {l : List Text} {n : Text} (h : Place link l)
    (hn : Proper n ∧ n ≠ ['.'] ∧ n ≠ ['.', '.'] ∧ link (l ++ [n]) = none) : Place link (l ++ [n]) := by
  intro l1 m l2 e
  rcases List.eq_nil_or_concat l2 with rfl | ⟨l3, x, rfl⟩
  · obtain ⟨rfl, e2⟩ := List.append_inj' e rfl
    simp only [List.cons.injEq, and_true] at e2
    subst e2
    exact hn
  · have : l ++ [n] = (l1 ++ m :: l3) ++ [x] := by rw [e]; simp
    obtain ⟨rfl, -⟩ := List.append_inj' this rfl
    exact h l1 m l3 rfl

theorem _root_.Verif.Spec.RelPath.Place.dropLast {l : List Text} (h : Place link l) : Place link l.dropLast := by
  rcases List.eq_nil_or_concat l with rfl | ⟨l3, x, rfl⟩
  · exact h
  · rw [List.concat_eq_append, List.dropLast_concat]
    rw [List.concat_eq_append] at h
    exact h.prefix

theorem _root_.Verif.Spec.RelPath.Place.proper {l : List Text} (h : Place link l) : ∀ n ∈ l, Proper n := by
  intro n hn
  obtain ⟨a, b, rfl⟩ := List.append_of_mem hn
  exact (h a n b rfl).1

theorem foldlM_place {f : List Text → Text → Option (List Text)}
    (hf : ∀ cur n r, Place link cur → Proper n → f cur n = some r → Place link r) :
    ∀ (l cur r : List Text), Place link cur → (∀ n ∈ l, Proper n) → l.foldlM f cur = some r → Place link r
  | [], cur, r, hc, _, h => by
    simp only [List.foldlM_nil] at h
    cases h
    exact hc
  | n :: l, cur, r, hc, hl, h => by
    rw [List.foldlM_cons] at h
    cases hx : f cur n with
    | none => rw [hx] at h; cases h
    | some x =>
      rw [hx] at h
      exact foldlM_place hf l x r (hf _ _ _ hc (hl n (by simp)) hx) (fun m hm => hl m (by simp [hm])) h

theorem enter_place : ∀ (depth : Nat) (cur : List Text) (n : Text) (r : List Text), Place link cur → Proper n →
    enter link depth cur n = some r → Place link r := by
  intro depth
  induction depth with
  | zero =>
    intro cur n r hc hn h
    unfold enter at h
    split at h
    · cases h; exact hc
    split at h
    · cases h; exact hc.dropLast
    split at h
    · rename_i h1 h2 _ h3
      cases h; exact hc.snoc ⟨hn, h1, h2, h3⟩
    · cases h
  | succ depth ih =>
    intro cur n r hc hn h
    unfold enter at h
    split at h
    · cases h; exact hc
    split at h
    · cases h; exact hc.dropLast
    split at h
    · rename_i h1 h2 _ h3
      cases h; exact hc.snoc ⟨hn, h1, h2, h3⟩
    · refine foldlM_place ih _ _ _ ?_ (names_mem _) h
      split
      · exact .nil
      · exact hc

theorem locate_place {fs : FS} {cwd : List Text} (hc : Place fs.link cwd) {p : Text} {l : List Text}
    (h : locate fs cwd p = some l) : Place fs.link l := by
  unfold locate at h
  refine foldlM_place (enter_place fs.depth) _ _ _ ?_ (names_mem _) h
  split
  · exact .nil
  · exact hc

/-- Going down to a place. -/
theorem foldlM_down (depth : Nat) : ∀ (b a : List Text), Place link (a ++ b) → b.foldlM (enter link depth) a = some (a ++ b)
  | [], a, _ => by simp
  | n :: b, a, h => by
    obtain ⟨-, h1, h2, h3⟩ := h a n b rfl
    have : enter link depth a n = some (a ++ [n]) := by
      unfold enter
      rw [if_neg h1, if_neg h2, h3]
    rw [List.foldlM_cons, this]
    have h' : Place link ((a ++ [n]) ++ b) := by simpa using h
    have := foldlM_down depth b (a ++ [n]) h'
    simpa using this

/-- Going up. -/
theorem foldlM_up (depth : Nat) : ∀ (k : Nat) (l : List Text),
    (List.replicate k ['.', '.']).foldlM (enter link depth) l = some (l.take (l.length - k))
  | 0, l => by simp
  | k + 1, l => by
    rw [List.replicate_succ, List.foldlM_cons]
    have : enter link depth l ['.', '.'] = some l.dropLast := by
      unfold enter
      rw [if_neg (by decide), if_pos rfl]
    rw [this]
    have := foldlM_up depth k l.dropLast
    change (List.replicate k ['.', '.']).foldlM (enter link depth) l.dropLast = _
    rw [this, List.length_dropLast, List.dropLast_eq_take, List.take_take]
    congr 2
    omega

theorem common_spec : ∀ a b : List Text, common a b ≤ a.length ∧ a.take (common a b) = b.take (common a b)
  | [], b => by simp [common]
  | x :: a, [] => by simp [common]
  | x :: a, y :: b => by
    unfold common
    split
    · rename_i h
      obtain ⟨h1, h2⟩ := common_spec a b
      exact ⟨by simpa using h1, by simp [h, h2]⟩
    · simp

theorem common_append (a u v : List Text) : common (a ++ u) (a ++ v) = a.length + common u v := by
  induction a with
  | nil => simp
  | cons x a ih => simp [common, ih]; omega

theorem relNames_append (a u v : List Text) : relNames (a ++ u) (a ++ v) = relNames u v := by
  unfold relNames
  rw [common_append, List.length_append, Nat.add_sub_add_left, List.drop_append]
  have : a.drop (a.length + common u v) = [] := List.drop_eq_nil_of_le (by omega)
  rw [this]
  simp

/-- Going along a relative path. -/
theorem foldlM_rel (depth : Nat) {d p : List Text} (hp : Place link p) :
    (relNames d p).foldlM (enter link depth) d = some p := by
  obtain ⟨h1, h2⟩ := common_spec d p
  unfold relNames
  rw [List.foldlM_append, foldlM_up]
  change (p.drop (common d p)).foldlM (enter link depth) (d.take (d.length - (d.length - common d p))) = _
  rw [Nat.sub_sub_self h1, h2]
  have := foldlM_down (link := link) depth (p.drop (common d p)) (p.take (common d p)) (by
    rw [List.take_append_drop]; exact hp)
  rw [this, List.take_append_drop]

theorem relNames_proper {d p : List Text} (hp : ∀ n ∈ p, Proper n) : ∀ n ∈ relNames d p, Proper n := by
  intro n hn
  unfold relNames at hn
  rcases List.mem_append.1 hn with hn | hn
  · rw [(List.mem_replicate.1 hn).2]
    exact ⟨by decide, by decide⟩
  · exact hp n (List.mem_of_mem_drop hn)

/-- The relative path as a text. -/
theorem relpath_render {d p : List Text} (hd : ∀ n ∈ d, Proper n) (hp : ∀ n ∈ p, Proper n) :
    isAbs (relpath (render p) (render d)) = false ∧
      names (relpath (render p) (render d)) = if relNames d p = [] then [['.']] else relNames d p := by
  unfold relpath
  rw [names_render hd, names_render hp]
  have h := relNames_proper (d := d) hp
  cases hr : relNames d p with
  | nil => exact ⟨by decide, by decide⟩
  | cons n l =>
    rw [hr] at h
    have hn := h n (by simp)
    obtain ⟨h1, h2⟩ := join_names l (fun m hm => h m (by simp [hm])) n hn.1 (proper_head hn)
    refine ⟨h2, ?_⟩
    dsimp only
    rw [h1, names_proper hn]
    simp

theorem locate_render {fs : FS} (cwd : List Text) {l : List Text} (h : Place fs.link l) : locate fs cwd (render l) = some l := by
  unfold locate
  rw [isAbs_render, names_render h.proper]
  have := foldlM_down (link := fs.link) fs.depth l [] (by simpa using h)
  simpa using this

theorem realpath_render {fs : FS} (cwd : List Text) {l : List Text} (h : Place fs.link l) :
    realpath fs cwd (render l) = some (render l) := by
  unfold realpath
  rw [locate_render cwd h]
  rfl

/-- A relative path in a directory. -/
theorem locate_join {fs : FS} {cwd d : List Text} {a x : Text} (h : locate fs cwd a = some d) (hx : isAbs x = false) :
    locate fs cwd (PosixPath.join a x) = (names x).foldlM (enter fs.link fs.depth) d := by
  have hj : isAbs (PosixPath.join a x) = isAbs a := by
    unfold isAbs at hx
    simp only [decide_eq_false_iff_not] at hx
    cases a with
    | nil =>
      unfold PosixPath.join isAbs
      rw [if_neg hx, if_pos (.inl rfl)]
      simpa using hx
    | cons c a =>
      unfold PosixPath.join isAbs
      rw [if_neg hx]
      split <;> simp
  unfold locate at h ⊢
  rw [names_join a x hx, hj, List.foldlM_append, h]
  rfl

end Verif.RelPath
