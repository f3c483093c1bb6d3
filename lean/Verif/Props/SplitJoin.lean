import Verif.Lemmas.SplitJoinTwo
import Verif.Lemmas.SplitJoinNames

/-! C84: splitting a corpus file and joining the parts, from file to file. -/
namespace Verif.Props.SplitJoin
open Verif Verif.Etree Verif.Pgc Verif.SplitJoin Verif.Spec.PgcCp Verif.Spec.SplitJoin Verif.Props.PgcTools
open Verif.PgcCp hiding readAt

variable {β γ : Type}

/-- The file name of the part with graph pairs number `i` to `j` of the corpus file `r ++ e`: each number has at least four
digits. -/
def PartName (r e : Text) (i j : Nat) (x : Text) : Prop :=
  ∃ a b, FourDigits i a ∧ FourDigits j b ∧ x = r ++ "_".toList ++ a ++ "-".toList ++ b ++ e

/-- The parts of the graph pairs `l`, of size `n` (the last one may be smaller). -/
structure Parts (r e : Text) (n : Nat) (l : List (PPair γ)) (names : List Text) (parts : List (List (PPair γ))) : Prop where
  all : parts.flatten = l
  length : names.length = parts.length
  part : ∀ k (h : k < parts.length), 0 < parts[k].length ∧ parts[k].length ≤ n ∧ (k + 1 < parts.length → parts[k].length = n)
  name : ∀ k (h : k < parts.length) (h' : k < names.length), PartName r e (k * n + 1) (k * n + parts[k].length) names[k]

private theorem filterMap_ids {α : Type} (l : List α) {m : List Nat} (h : ∀ k ∈ m, k < l.length) :
    (m.filterMap fun k => l[k]?).length = m.length := by
  induction m with
  | nil => rfl
  | cons a m ih =>
    rw [List.filterMap_cons, List.getElem?_eq_getElem (h a List.mem_cons_self)]
    simp only [List.length_cons, ih fun k hk => h k (List.mem_cons_of_mem _ hk)]

private theorem writeParts_ok {ps : Paths} {xml : Xml β} {fs : RelPath.FS} {cwd : List Text} {stat : String → Option Nat}
    {f : Bool} {s : State γ} {P : List Nat → Text → β → Prop} : ∀ (l : List (Text × List Nat)) (disk : Disk β),
    (∀ x ∈ l, Open ps x.1 ∧ ∃ out, writeCorpus xml fs cwd stat f s (part s x.2).1 (part s x.2).2 x.1 = .ok (out, none) ∧
      P x.2 x.1 out) →
    (l.map fun x => ps.place x.1).Nodup →
    ∃ d, writeParts ps xml fs cwd stat f s disk l = (d, none) ∧
      (∀ x ∈ l, ∃ out, d (ps.place x.1) = some out ∧ P x.2 x.1 out) ∧
      ∀ n, (∀ x ∈ l, n ≠ ps.place x.1) → d n = disk n
  | [], disk, _, _ => ⟨disk, rfl, by simp, fun _ _ => rfl⟩
  | x :: l, disk, h, hn => by
    obtain ⟨⟨ho1, ho2⟩, out, e1, e2⟩ := h x List.mem_cons_self
    rw [List.map_cons, List.nodup_cons] at hn
    obtain ⟨d, k1, k2, k3⟩ := writeParts_ok l (fun n => if n = ps.place x.1 then some out else disk n)
      (fun y hy => h y (List.mem_cons_of_mem _ hy)) hn.2
    refine ⟨d, ?_, ?_, ?_⟩
    · unfold writeParts putFile
      rw [e1]
      simp only [ho1, ho2, Bool.not_true, Bool.or_self, Bool.false_eq_true, if_false]
      exact k1
    · intro y hy
      rcases List.mem_cons.1 hy with rfl | hy
      · refine ⟨out, ?_, e2⟩
        rw [k3 _ fun z hz he => hn.1 (List.mem_map.2 ⟨z, hz, he.symm⟩), if_pos rfl]
      · exact k2 y hy
    · intro n hn'
      rw [k3 n fun y hy => hn' y (List.mem_cons_of_mem _ hy), if_neg (hn' x List.mem_cons_self)]

/-- What splitting a file depends on. -/
structure Situation (ps : Paths) (xml : Xml β) (fs : RelPath.FS) (cwd : List Text) (stat : String → Option Nat) (gb : Banks γ)
    (disk : Disk β) (fn r e : Text) (s : State γ) : Prop where
  lawful : Lawful xml
  newline : xml.ws '\n' = true
  space : xml.ws ' ' = true
  here : Spec.RelPath.Place fs.link cwd
  loops : ∀ q, (RelPath.locate fs cwd q).isSome
  held : ∃ c, ps.isDir fn = false ∧ disk (ps.place fn) = some c ∧ readAt xml fs cwd gb fn c = .ok s
  copy : Copyable stat xml.ws s
  load : Loadable gb stat s
  ext : SplitExt fn r e
  opens : ∀ i j x, PartName r e i j x → Open ps x
  places : ∀ i j x i' j' x', PartName r e i j x → PartName r e i' j' x' → ps.place x = ps.place x' → x = x'

private theorem split_aux {ps : Paths} {xml : Xml β} {fs : RelPath.FS} {cwd : List Text} {stat : String → Option Nat}
    {gb : Banks γ} {disk : Disk β} {fn r e : Text} {s : State γ} (S : Situation ps xml fs cwd stat gb disk fn r e s)
    {count : Int} {size : Option Int} {n : Nat} (hsize : Size s.pairs.length count size n) (f : Bool) :
    ∃ d names parts, Parts r e n s.pairs names parts ∧ names.Nodup ∧
      pgcSplit ps xml fs cwd stat gb f count size disk fn = (d, none) ∧
      List.Forall₂ (fun x l => (∀ p ∈ l, p ∈ s.pairs) ∧ ∃ t, readFile ps xml fs cwd gb d x = .ok t ∧
        Same (Kept xml.ws f) stat s l t ∧ Ready xml.ws fs gb stat t) names parts ∧
      (∀ m, (∀ x ∈ names, m ≠ ps.place x) → d m = disk m) := by
  obtain ⟨c, h1, h2, h3⟩ := S.held
  have hready := ready_of_read S.lawful S.here S.loops h3 S.copy S.load
  have hlen : (PgcCp.corpus s).pairs.length = s.pairs.length := List.length_range
  obtain ⟨l, g1, g2, g3, g4⟩ := split_covers r e (PgcCp.corpus s).pairs count size n (by rw [hlen]; exact hsize)
  have hlt : ∀ x ∈ l, ∀ k ∈ x.2, k < s.pairs.length := by
    intro x hx k hk
    have : k ∈ (l.map Prod.snd).flatten := List.mem_flatten.2 ⟨_, List.mem_map_of_mem hx, hk⟩
    rw [g2] at this
    exact List.mem_range.1 this
  have hname : ∀ x ∈ l, ∃ i j, PartName r e i j x.1 := by
    intro x hx
    obtain ⟨k, hk, rfl⟩ := List.getElem_of_mem hx
    obtain ⟨-, -, -, a, b, q1, q2, q3⟩ := g3 k hk
    exact ⟨_, _, a, b, q1, q2, q3⟩
  obtain ⟨d, w1, w2, w3⟩ := writeParts_ok (ps := ps) (xml := xml) (fs := fs) (cwd := cwd) (stat := stat) (f := f) (s := s)
    (P := fun m x out => ∃ t, readAt xml fs cwd gb x out = .ok t ∧
      Same (Kept xml.ws f) stat s (m.filterMap fun k => s.pairs[k]?) t ∧ Ready xml.ws fs gb stat t) l disk
    (by
      intro x hx
      obtain ⟨i, j, hx'⟩ := hname x hx
      refine ⟨S.opens _ _ _ hx', ?_⟩
      obtain ⟨ld, hld⟩ := Option.isSome_iff_exists.1 (S.loops (PosixPath.dirname x.1))
      have hd : RelPath.realpath fs cwd (PosixPath.dirname x.1) = some (RelPath.render ld) := by
        unfold RelPath.realpath; rw [hld]; rfl
      exact reads_back S.lawful S.newline S.space S.here S.here hd hd hready (part_made S.copy.sorted (hlt x hx)) f)
    (by
      refine List.Nodup.of_map (f := fun m => (l.find? fun x => decide (ps.place x.1 = m)).map Prod.fst) ?_
      rw [List.map_map]
      have : ∀ x ∈ l, (l.find? fun y => decide (ps.place y.1 = ps.place x.1)).map Prod.fst = some x.1 := by
        intro x hx
        cases hf : l.find? fun y => decide (ps.place y.1 = ps.place x.1) with
        | none =>
          rw [List.find?_eq_none] at hf
          exact absurd (hf x hx) (by simp)
        | some y =>
          have hy := List.find?_some hf
          have hy' := List.mem_of_find?_eq_some hf
          obtain ⟨i, j, h1⟩ := hname y hy'
          obtain ⟨i', j', h2⟩ := hname x hx
          rw [Option.map_some, S.places _ _ _ _ _ _ h1 h2 (by simpa using hy)]
      rw [List.map_congr_left (g := some ∘ Prod.fst) (by intro x hx; exact this x hx), ← List.map_map]
      exact g4.map (Option.some_injective _))
  refine ⟨d, l.map Prod.fst, l.map fun x => x.2.filterMap fun k => s.pairs[k]?, ⟨?_, by simp, ?_, ?_⟩, g4, ?_, ?_, ?_⟩
  · have : (l.map fun x => x.2.filterMap fun k => s.pairs[k]?) =
        (l.map Prod.snd).map fun m => m.filterMap fun k => s.pairs[k]? := by rw [List.map_map]; rfl
    rw [this, ← List.filterMap_flatten, g2]
    exact range_pairs s.pairs
  · intro k hk
    rw [List.length_map] at hk
    obtain ⟨q1, q2, q3, -⟩ := g3 k hk
    simp only [List.getElem_map, List.length_map]
    rw [filterMap_ids _ (hlt _ (List.getElem_mem hk))]
    exact ⟨q1, q2, q3⟩
  · intro k hk hk'
    rw [List.length_map] at hk
    obtain ⟨-, -, -, q⟩ := g3 k hk
    simp only [List.getElem_map]
    rw [filterMap_ids _ (hlt _ (List.getElem_mem hk))]
    exact q
  · unfold pgcSplit readFile
    rw [h1, h2]
    simp only [Bool.false_eq_true, if_false, h3, splitext_spec S.ext, g1]
    exact w1
  · rw [List.forall₂_map_left_iff, List.forall₂_map_right_iff, List.forall₂_same]
    intro x hx
    refine ⟨?_, ?_⟩
    · intro p hp
      obtain ⟨k, -, hk⟩ := List.mem_filterMap.1 hp
      exact List.mem_of_getElem? hk
    · obtain ⟨out, k1, t, k2, k3, k4⟩ := w2 x hx
      obtain ⟨i, j, hx'⟩ := hname x hx
      refine ⟨t, ?_, k3, k4⟩
      unfold readFile
      rw [(S.opens _ _ _ hx').1, k1]
      exact k2
  · intro m hm
    exact w3 m fun x hx => hm x.1 (List.mem_map_of_mem hx)

/-- **C84**: splitting a corpus file ends without an exception; each part is a file, named after its first and last graph pair,
that is read as just these graph pairs, with the relations and the metadata of the corpus; all other files, the corpus
file too unless it has the name of a part, are as they were. -/
theorem split_files {ps : Paths} {xml : Xml β} {fs : RelPath.FS} {cwd : List Text} {stat : String → Option Nat}
    {gb : Banks γ} {disk : Disk β} {fn r e : Text} {s : State γ} (S : Situation ps xml fs cwd stat gb disk fn r e s)
    {count : Int} {size : Option Int} {n : Nat} (hsize : Size s.pairs.length count size n) (f : Bool) :
    ∃ d names parts, pgcSplit ps xml fs cwd stat gb f count size disk fn = (d, none) ∧ Parts r e n s.pairs names parts ∧
      names.Nodup ∧
      List.Forall₂ (fun x l => ∃ t, readFile ps xml fs cwd gb d x = .ok t ∧ Same (Kept xml.ws f) stat s l t) names parts ∧
      (∀ m, (∀ x ∈ names, m ≠ ps.place x) → d m = disk m) := by
  obtain ⟨d, names, parts, h1, h2, h3, h4, h5⟩ := split_aux S hsize f
  exact ⟨d, names, parts, h3, h1, h2, h4.imp fun x l h => by obtain ⟨-, t, q1, q2, -⟩ := h; exact ⟨t, q1, q2⟩, h5⟩

private theorem names_sorted {r e : Text} {n : Nat} {l : List (PPair γ)} {names : List Text} {parts : List (List (PPair γ))}
    (h : Parts r e n l names parts) (hl : l.length ≤ 9999) : names.Pairwise fun x y => String.ofList x ≤ String.ofList y := by
  rw [List.pairwise_iff_getElem]
  intro i j hi hj hij
  have hi' : i < parts.length := h.length ▸ hi
  have hj' : j < parts.length := h.length ▸ hj
  -- the first graph pair of part `j` is in the corpus
  have hfull : ∀ k, k ≤ parts.length → k < parts.length → ((parts.take k).map List.length).sum = k * n := by
    intro k
    induction k with
    | zero => intro _ _; simp
    | succ k ih =>
      intro h1 h2
      rw [List.take_succ_eq_append_getElem (by omega), List.map_append, List.sum_append, ih (by omega) (by omega)]
      simp only [List.map_cons, List.map_nil, List.sum_cons, List.sum_nil, Nat.add_zero]
      rw [(h.part k (by omega)).2.2 h2]
      ring
  have hlen : j * n + parts[j].length ≤ 9999 := by
    refine le_trans ?_ hl
    rw [← h.all, List.length_flatten, ← hfull j (by omega) hj']
    conv => rhs; rw [← List.take_append_drop j parts]
    rw [List.map_append, List.sum_append, List.drop_eq_getElem_cons hj', List.map_cons, List.sum_cons]
    omega
  have hpos := (h.part j hj').1
  have hmul : i * n ≤ j * n := Nat.mul_le_mul_right _ (by omega)
  obtain ⟨a, b, q1, q2, q3⟩ := h.name i hi' hi
  obtain ⟨a', b', q1', q2', q3'⟩ := h.name j hj' hj
  have hn : 0 < n := lt_of_lt_of_le (h.part i hi').1 (h.part i hi').2.1
  have hlt : i * n + 1 < j * n + 1 := Nat.add_lt_add_right (Nat.mul_lt_mul_of_pos_right hij hn) 1
  rw [q3, q3']
  apply SplitJoin.le_of_lt
  simp only [List.append_assoc]
  refine lt_append_left _ _ _ (lt_append_left _ _ _ ?_)
  refine digits_lt q1.1 q1'.1 ?_ ?_
  · rw [four_length q1 (by omega), four_length q1' (by omega)]
  · rw [q1.2.1, q1'.2.1]; exact hlt

private theorem join_aux {ps : Paths} {xml : Xml β} {fs : RelPath.FS} {cwd cwd' : List Text} {stat : String → Option Nat}
    {gb : Banks γ} {disk : Disk β} {s : State γ} (hxml : Lawful xml) (hnl : xml.ws '\n' = true)
    (hsp : xml.ws ' ' = true) (hcwd : Spec.RelPath.Place fs.link cwd) (hcwd' : Spec.RelPath.Place fs.link cwd')
    (hloops : ∀ q, (RelPath.locate fs cwd q).isSome) (hs : Ready xml.ws fs gb stat s) {f : Bool} (g : Bool)
    {glob : Text → List Text} {pats : List Text} {fns : List Text} (hfns : multiglob glob pats = fns) (hne : fns ≠ [])
    {ls : List (List (PPair γ))}
    (h : List.Forall₂ (fun fn l => (∀ p ∈ l, p ∈ s.pairs) ∧ ∃ t, readFile ps xml fs cwd gb disk fn = .ok t ∧
      Same (Kept xml.ws f) stat s l t ∧ Ready xml.ws fs gb stat t) fns ls) :
    ∃ out, pgcJoin ps xml fs cwd stat gb glob g disk pats = .ok (out, none) ∧
      ∀ inf, RelPath.realpath fs cwd' (PosixPath.dirname inf) = RelPath.realpath fs cwd [] →
        ∃ t, readAt xml fs cwd' gb inf out = .ok t ∧ Same (Kept xml.ws (f || g)) stat s ls.flatten t := by
  cases h with
  | nil => exact absurd rfl hne
  | @cons fn l fns ls h1 h2 =>
    obtain ⟨hl, t, e1, e2, e3⟩ := h1
    obtain ⟨j, k1, k2, k3⟩ := joined_all hs h2 t l hl e2 e3
    obtain ⟨w, p1, p2⟩ := purged_made k3
    obtain ⟨ld, hld⟩ := Option.isSome_iff_exists.1 (hloops [])
    have hd : RelPath.realpath fs cwd [] = some (RelPath.render ld) := by
      unfold RelPath.realpath; rw [hld]; rfl
    have hdir : PosixPath.dirname "<stdout>".toList = [] := by decide
    have hout : ∃ out, writeCorpus xml fs cwd stat g j w (PgcCp.corpus j) "<stdout>".toList = .ok (out, none) := by
      obtain ⟨out, o1, -⟩ := reads_back (inf := []) hxml hnl hsp hcwd hcwd (by rw [hdir]; exact hd)
        (by rw [show PosixPath.dirname [] = [] by decide]; exact hd) k3 p2 g
      exact ⟨out, o1⟩
    obtain ⟨out, o1⟩ := hout
    refine ⟨out, ?_, ?_⟩
    · unfold pgcJoin joinFiles
      rw [hfns]
      simp only [e1, k1, p1]
      exact o1
    · intro inf hinf
      obtain ⟨out', o2, t', o3, o4, -⟩ := reads_back (inf := inf) hxml hnl hsp hcwd hcwd' (by rw [hdir]; exact hd)
        (hinf.trans hd) k3 p2 g
      rw [o1] at o2
      obtain rfl : out = out' := (Prod.mk.inj (Except.ok.inj o2)).1
      refine ⟨t', o3, ?_⟩
      have hrange : (PgcCp.corpus j).pairs.filterMap (fun k => j.pairs[k]?) = j.pairs := range_pairs j.pairs
      rw [hrange] at o4
      exact same_trans k2 o4

/-- **C84**: joining the parts of a corpus of 1 to 9999 graph pairs, whatever the order in which the files are found, gives the
corpus: what is written, put in a file in the working directory (or in any directory that is the same), is read as the same
graph pairs in the same order, with the same relations and metadata. -/
theorem split_join {ps : Paths} {xml : Xml β} {fs : RelPath.FS} {cwd cwd' : List Text} {stat : String → Option Nat}
    {gb : Banks γ} {disk : Disk β} {fn r e : Text} {s : State γ} (S : Situation ps xml fs cwd stat gb disk fn r e s)
    {count : Int} {size : Option Int} {n : Nat} (hsize : Size s.pairs.length count size n) (hs0 : s.pairs ≠ [])
    (hs1 : s.pairs.length ≤ 9999) (hcwd' : Spec.RelPath.Place fs.link cwd') (f g : Bool) :
    ∃ d names parts, pgcSplit ps xml fs cwd stat gb f count size disk fn = (d, none) ∧ Parts r e n s.pairs names parts ∧
      ∀ (glob : Text → List Text) (pats : List Text), (pats.flatMap glob).Perm names →
        ∃ out, pgcJoin ps xml fs cwd stat gb glob g d pats = .ok (out, none) ∧
          ∀ inf, RelPath.realpath fs cwd' (PosixPath.dirname inf) = RelPath.realpath fs cwd [] →
            ∃ t, readAt xml fs cwd' gb inf out = .ok t ∧ Same (Kept xml.ws (f || g)) stat s s.pairs t := by
  obtain ⟨d, names, parts, h1, -, h3, h4, -⟩ := split_aux S hsize f
  obtain ⟨c, -, -, hread⟩ := S.held
  refine ⟨d, names, parts, h3, h1, fun glob pats hperm => ?_⟩
  have := join_aux (cwd' := cwd') S.lawful S.newline S.space S.here hcwd' S.loops
    (ready_of_read S.lawful S.here S.loops hread S.copy S.load) g (multiglob_eq hperm (names_sorted h1 hs1)) (by
      intro h
      have := h1.length
      rw [h, List.length_nil] at this
      apply hs0
      rw [← h1.all, List.length_eq_zero_iff.1 this.symm]
      rfl) h4
  rw [h1.all] at this
  exact this

/-- **C84**, a limit: the names of the parts are sorted as texts, so parts of 5000 graph pairs of a corpus of 15000 are joined
in the wrong order: 0001-5000, 10001-15000, 5001-10000. -/
theorem wrong_order {ps : Paths} {xml : Xml β} {fs : RelPath.FS} {cwd cwd' : List Text} {stat : String → Option Nat}
    {gb : Banks γ} {disk : Disk β} {fn r e : Text} {s : State γ} (S : Situation ps xml fs cwd stat gb disk fn r e s)
    {count : Int} (hs : s.pairs.length = 15000) (hcwd' : Spec.RelPath.Place fs.link cwd') (f g : Bool) :
    ∃ d names, pgcSplit ps xml fs cwd stat gb f count (some 5000) disk fn = (d, none) ∧ names.length = 3 ∧
      ∀ (glob : Text → List Text) (pats : List Text), (pats.flatMap glob).Perm names →
        ∃ out, pgcJoin ps xml fs cwd stat gb glob g d pats = .ok (out, none) ∧
          ∀ inf, RelPath.realpath fs cwd' (PosixPath.dirname inf) = RelPath.realpath fs cwd [] →
            ∃ t, readAt xml fs cwd' gb inf out = .ok t ∧ Same (Kept xml.ws (f || g)) stat s
              (s.pairs.take 5000 ++ s.pairs.drop 10000 ++ (s.pairs.drop 5000).take 5000) t := by
  obtain ⟨d, names, parts, h1, -, h3, h4, -⟩ := split_aux S (count := count) (size := some 5000) (n := 5000)
    (.inl ⟨rfl, by omega⟩) f
  obtain ⟨c, -, -, hread⟩ := S.held
  have hall := h1.all
  -- three parts
  obtain ⟨a, b, c, rfl⟩ : ∃ a b c, parts = [a, b, c] := by
    have hlen := congrArg List.length h1.all
    rw [hs] at hlen
    have hp := h1.part
    rcases parts with _ | ⟨a, _ | ⟨b, _ | ⟨c, _ | ⟨d, l⟩⟩⟩⟩
    · simp at hlen
    · have := (hp 0 (by simp)).2.1
      simp at this hlen
      omega
    · have h0 := (hp 0 (by simp)).2.1
      have h1 := (hp 1 (by simp)).2.1
      simp at h0 h1 hlen
      omega
    · exact ⟨a, b, c, rfl⟩
    · have h0 := (hp 0 (by simp)).2.2 (by simp)
      have h1 := (hp 1 (by simp)).2.2 (by simp)
      have h2 := (hp 2 (by simp)).2.2 (by simp)
      have h3 := (hp 3 (by simp)).1
      simp at h0 h1 h2 h3 hlen
      omega
  have ha : a.length = 5000 := (h1.part 0 (by simp)).2.2 (by simp)
  have hb : b.length = 5000 := (h1.part 1 (by simp)).2.2 (by simp)
  simp only [List.flatten_cons, List.flatten_nil, List.append_nil] at hall
  have hc : c.length = 5000 := by
    have := congrArg List.length hall
    rw [hs] at this
    simp only [List.length_append] at this
    omega
  obtain ⟨x, y, z, rfl⟩ : ∃ x y z, names = [x, y, z] := List.length_eq_three.1 h1.length
  have hx := h1.name 0 (by simp) (by simp)
  have hy := h1.name 1 (by simp) (by simp)
  have hz := h1.name 2 (by simp) (by simp)
  simp only [List.getElem_cons_zero, List.getElem_cons_succ, ha, hb, hc] at hx hy hz
  have num : ∀ (n : Nat) (t : List Char), FourDigits n t → ∀ t', FourDigits n t' → t' = t := fun _ _ h _ h' => four_unique h' h
  obtain ⟨u1, u2, q1, q2, rfl⟩ := hx
  obtain ⟨v1, v2, q3, q4, rfl⟩ := hy
  obtain ⟨w1, w2, q5, q6, rfl⟩ := hz
  obtain rfl := num _ "0001".toList (by refine ⟨?_, ?_, ?_, ?_⟩ <;> decide) _ q1
  obtain rfl := num _ "5001".toList (by refine ⟨?_, ?_, ?_, ?_⟩ <;> decide) _ q3
  obtain rfl := num _ "10001".toList (by refine ⟨?_, ?_, ?_, ?_⟩ <;> decide) _ q5
  rw [List.forall₂_cons, List.forall₂_cons, List.forall₂_cons] at h4
  obtain ⟨k1, k2, k3, -⟩ := h4
  have hlt : ∀ (p q u v : Text) (c d : Char), c < d → String.ofList (r ++ "_".toList ++ (c :: p) ++ "-".toList ++ u ++ e) ≤
      String.ofList (r ++ "_".toList ++ (d :: q) ++ "-".toList ++ v ++ e) := by
    intro p q u v c d hcd
    apply SplitJoin.le_of_lt
    simp only [List.append_assoc]
    exact lt_append_left _ _ _ (lt_append_left _ _ _ (List.cons_lt_cons_iff.2 (.inl hcd)))
  refine ⟨d, _, h3, h1.length, fun glob pats hperm => ?_⟩
  have := join_aux (cwd' := cwd') S.lawful S.newline S.space S.here hcwd' S.loops
    (ready_of_read S.lawful S.here S.loops hread S.copy S.load) g
    (multiglob_eq (hperm.trans ((List.Perm.swap _ _ []).cons _)) (by
      refine .cons ?_ (.cons ?_ (.cons (by simp) .nil))
      · intro t ht
        simp only [List.mem_cons, List.not_mem_nil, or_false] at ht
        rcases ht with rfl | rfl
        · exact hlt _ _ _ _ _ _ (by decide)
        · exact hlt _ _ _ _ _ _ (by decide)
      · intro t ht
        simp only [List.mem_cons, List.not_mem_nil, or_false] at ht
        subst ht
        exact hlt _ _ _ _ _ _ (by decide))) (by simp) (.cons k1 (.cons k3 (.cons k2 .nil)))
  have he : [a, c, b].flatten = s.pairs.take 5000 ++ s.pairs.drop 10000 ++ (s.pairs.drop 5000).take 5000 := by
    rw [← hall]
    have e1 : (a ++ (b ++ c)).take 5000 = a := by rw [← ha, List.take_left]
    have e2 : (a ++ (b ++ c)).drop 5000 = b ++ c := by rw [← ha, List.drop_left]
    have e3 : (a ++ (b ++ c)).drop 10000 = c := by
      rw [← List.append_assoc, show 10000 = (a ++ b).length by rw [List.length_append, ha, hb], List.drop_left]
    have e4 : (b ++ c).take 5000 = b := by rw [← hb, List.take_left]
    rw [e1, e2, e3, e4]
    simp
  rw [he] at this
  exact this

/-- **C84**: what cannot be read, or split into no parts, is left alone: a missing file or a directory is an OSError (IOError), a
file that is not a corpus raises what reading it raises, and zero parts (without a size) are a ZeroDivisionError; no file is
written.  A negative number as size writes no file and raises nothing. -/
theorem split_refused {ps : Paths} {xml : Xml β} {fs : RelPath.FS} {cwd : List Text} {stat : String → Option Nat}
    {gb : Banks γ} {disk : Disk β} {fn : Text} {f : Bool} {count : Int} {size : Option Int} :
    (ps.isDir fn = true ∨ disk (ps.place fn) = none →
      pgcSplit ps xml fs cwd stat gb f count size disk fn = (disk, some .osError)) ∧
    (∀ c e, ps.isDir fn = false → disk (ps.place fn) = some c → readAt xml fs cwd gb fn c = .error e →
      pgcSplit ps xml fs cwd stat gb f count size disk fn = (disk, some e)) ∧
    (∀ c s, ps.isDir fn = false → disk (ps.place fn) = some c → readAt xml fs cwd gb fn c = .ok s →
      (count = 0 ∧ (size = none ∨ size = some 0) →
        pgcSplit ps xml fs cwd stat gb f count size disk fn = (disk, some .zeroDivision)) ∧
      ((∃ n < 0, size = some n) → pgcSplit ps xml fs cwd stat gb f count size disk fn = (disk, none))) := by
  refine ⟨?_, ?_, ?_⟩
  · intro h
    unfold pgcSplit readFile
    by_cases hd : ps.isDir fn = true
    · simp [hd]
    · rw [if_neg hd, h.resolve_left hd]
  · intro c e h1 h2 h3
    unfold pgcSplit readFile
    simp [h1, h2, h3]
  · intro c s h1 h2 h3
    have hr : readFile ps xml fs cwd gb disk fn = .ok s := by
      unfold readFile
      simp [h1, h2, h3]
    constructor
    · rintro ⟨rfl, h⟩
      unfold pgcSplit PgcTools.split PgcTools.partSize
      rw [hr]
      dsimp only
      rw [if_pos h, if_pos rfl]
    · rintro ⟨n, hn, rfl⟩
      unfold pgcSplit PgcTools.split PgcTools.partSize
      rw [hr]
      dsimp only
      rw [if_neg (by simp; omega)]
      simp only [Option.getD_some]
      unfold PgcTools.rangeStep
      rw [if_pos hn]
      rfl

/-- No attribute to be written for the graph pair is None: its banks have formats, its node pairs both nodes and a relation. -/
def Attributes (s : State γ) (p : PPair γ) : Prop :=
  (∀ i b, i = p.sourceBank ∨ i = p.targetBank → s.banks.get? (some i) = some b → b.format.isSome) ∧
    ∀ x y r, GraphPair.getAlign p.align x y = .ok (some r) → x.isSome ∧ y.isSome ∧ r.isSome

private theorem attributes_of {s : State γ} {l : List (PPair γ)} (h : complete { s with pairs := l } = true) {p : PPair γ}
    (hp : p ∈ l) (hal : ∃ M, GraphPair.Al p.align M (fun _ => False)) : Attributes s p := by
  unfold complete at h
  have := List.all_eq_true.1 h p hp
  rw [Bool.and_eq_true] at this
  obtain ⟨h1, h2⟩ := this
  refine ⟨?_, ?_⟩
  · intro i b hi hb
    have := List.all_eq_true.1 h1 i (by rcases hi with rfl | rfl <;> simp)
    dsimp only at this
    rw [hb] at this
    exact this
  · obtain ⟨M, m⟩ := hal
    obtain ⟨l, e1, -, -, e4⟩ := m.all
    intro x y r hr
    rw [show GraphPair.alignments p.align none = .ok l from e1] at h2
    rw [m.get] at hr
    have := List.all_eq_true.1 h2 _ ((e4 x y r).2 (Except.ok.inj hr))
    simpa [Bool.and_eq_true, and_assoc] using this

private theorem writeCorpus_complete {xml : Xml β} {fs : RelPath.FS} {cwd : List Text} {stat : String → Option Nat} {f : Bool}
    {s : State γ} {w : Corpus.World} {c : Corpus.Corpus} {fn : Text} {out : β}
    (h : writeCorpus xml fs cwd stat f s w c fn = .ok (out, none)) :
    complete { s with pairs := c.pairs.filterMap fun k => s.pairs[k]? } = true := by
  unfold writeCorpus at h
  split at h
  · cases h
  · by_contra hc
    rw [if_neg hc] at h
    have := (Prod.mk.inj (Except.ok.inj h)).2
    cases this

private theorem writeParts_complete {ps : Paths} {xml : Xml β} {fs : RelPath.FS} {cwd : List Text} {stat : String → Option Nat}
    {f : Bool} {s : State γ} : ∀ (l : List (Text × List Nat)) (disk d : Disk β),
    writeParts ps xml fs cwd stat f s disk l = (d, none) →
    ∀ x ∈ l, complete { s with pairs := x.2.filterMap fun k => s.pairs[k]? } = true
  | [], _, _, _, x, hx => by simp at hx
  | y :: l, disk, d, h, x, hx => by
    unfold writeParts at h
    rcases hput : putFile ps disk y.1 (writeCorpus xml fs cwd stat f s (part s y.2).1 (part s y.2).2 y.1) with ⟨d', _ | e⟩
    · rw [hput] at h
      rcases List.mem_cons.1 hx with rfl | hx
      · unfold putFile at hput
        split at hput
        · cases hput
        · rename_i c e hw
          split at hput
          · cases hput
          · obtain ⟨-, rfl⟩ := Prod.mk.inj hput
            exact writeCorpus_complete hw
      · exact writeParts_complete l _ _ h x hx
    · rw [hput] at h
      cases (Prod.mk.inj h).2

/-- **C84**: if pgc_split ends without an exception, then no attribute of a graph pair was None: no part is left that was broken off
at such an attribute. -/
theorem split_complete {ps : Paths} {xml : Xml β} (hxml : Lawful xml) {fs : RelPath.FS} {cwd : List Text}
    {stat : String → Option Nat} {gb : Banks γ} {disk d : Disk β} {fn : Text} {f : Bool} {count : Int} {size : Option Int}
    {c : β} {s : State γ} (h1 : ps.isDir fn = false) (h2 : disk (ps.place fn) = some c) (h3 : readAt xml fs cwd gb fn c = .ok s)
    {n : Nat} (hsize : Size s.pairs.length count size n) (h : pgcSplit ps xml fs cwd stat gb f count size disk fn = (d, none)) :
    ∀ p ∈ s.pairs, Attributes s p := by
  intro p hp
  have hI : ∃ env, ReadInv env s := by
    unfold readAt at h3
    rcases k1 : Pgc.parse (envAt xml fs cwd gb fn) .sparse (xml.parse c).1 with e | s'
    · rw [k1] at h3; cases h3
    · rw [k1] at h3
      dsimp only at h3
      rcases k2 : (xml.parse c).2 with _ | e
      · rw [k2] at h3
        rw [← Except.ok.inj h3]
        exact ⟨_, readInv_sparse k1 fun e he => hxml.texts c e he⟩
      · rw [k2] at h3; cases h3
  obtain ⟨env, hI⟩ := hI
  obtain ⟨M, m, -⟩ := (hI.pairs p hp).align
  have hlen : (PgcCp.corpus s).pairs.length = s.pairs.length := List.length_range
  obtain ⟨l, g1, g2, -, -⟩ := split_covers (splitext fn).1 (splitext fn).2 (PgcCp.corpus s).pairs count size n
    (by rw [hlen]; exact hsize)
  unfold pgcSplit readFile at h
  rw [h1, h2] at h
  simp only [Bool.false_eq_true, if_false, h3, g1] at h
  obtain ⟨k, hk, rfl⟩ := List.getElem_of_mem hp
  have hmem : k ∈ (l.map Prod.snd).flatten := by
    rw [g2]; exact List.mem_range.2 hk
  obtain ⟨x, hx, hkx⟩ := List.mem_flatten.1 hmem
  obtain ⟨y, hy, rfl⟩ := List.mem_map.1 hx
  exact attributes_of (writeParts_complete l disk d h y hy)
    (List.mem_filterMap.2 ⟨k, hkx, List.getElem?_eq_getElem hk⟩) ⟨M, m⟩

/-! ### Joining any corpora -/

/-- Graph pair `q` of `j` is graph pair `p` of `t`, with the same banks. -/
structure TakenOver (t j : State γ) (p q : PPair γ) : Prop where
  source : j.banks.get? (some q.sourceBank) = t.banks.get? (some p.sourceBank)
  target : j.banks.get? (some q.targetBank) = t.banks.get? (some p.targetBank)
  rest : { q with sourceBank := p.sourceBank, targetBank := p.targetBank } = p

private theorem taken_tagged {t a j : State γ} {c : Char} (hg : ∀ i, j.banks.get? (some (tag c i)) = a.banks.get? (some i))
    {p q : PPair γ} (h : TakenOver t a p q) : TakenOver t j p (tagPair c q) :=
  ⟨(hg _).trans h.source, (hg _).trans h.target, h.rest⟩

private theorem taken_self {t j : State γ} {c : Char} (hg : ∀ i, j.banks.get? (some (tag c i)) = t.banks.get? (some i))
    (p : PPair γ) : TakenOver t j p (tagPair c p) := ⟨hg _, hg _, rfl⟩

private theorem join_step_any {ps : Paths} {xml : Xml β} {fs : RelPath.FS} {cwd : List Text} {gb : Banks γ} {disk : Disk β} :
    ∀ (fns : List Text) (ts : List (State γ)),
      List.Forall₂ (fun fn t => readFile ps xml fs cwd gb disk fn = .ok t) fns ts →
      ∀ (a : State γ) (done : List (State γ × PPair γ)), (∀ t ∈ ts, t.rels = a.rels) →
        List.Forall₂ (fun x q => TakenOver x.1 a x.2 q) done a.pairs →
        ∃ j, Py.forIn fns a (joinStep ps xml fs cwd gb disk) = .ok j ∧ j.rels = a.rels ∧ j.meta = a.meta ∧
          List.Forall₂ (fun x q => TakenOver x.1 j x.2 q) (done ++ ts.flatMap fun t => t.pairs.map fun p => (t, p)) j.pairs
  | _, _, .nil, a, done, _, hd => ⟨a, rfl, rfl, rfl, by simpa using hd⟩
  | fn :: fns, t :: ts, .cons h1 h2, a, done, hr, hd => by
    have e : addCorpus a t = .ok { a with
        banks := tagBanks 'l' a.banks ++ tagBanks 'r' t.banks
        pairs := a.pairs.map (tagPair 'l') ++ t.pairs.map (tagPair 'r') } := by
      unfold addCorpus
      rw [if_neg (not_not.2 (hr t List.mem_cons_self).symm)]
    obtain ⟨j, k1, k2, k3, k4⟩ := join_step_any fns ts h2 { a with
        banks := tagBanks 'l' a.banks ++ tagBanks 'r' t.banks
        pairs := a.pairs.map (tagPair 'l') ++ t.pairs.map (tagPair 'r') } (done ++ t.pairs.map fun p => (t, p))
      (fun u hu => hr u (List.mem_cons_of_mem _ hu)) (by
        refine List.rel_append ?_ ?_
        · rw [List.forall₂_map_right_iff]
          exact hd.imp fun x q h => taken_tagged (joined_left a t) h
        · rw [List.forall₂_map_right_iff, List.forall₂_map_left_iff, List.forall₂_same]
          exact fun p _ => taken_self (joined_right a t) p)
    refine ⟨j, ?_, k2, k3, ?_⟩
    · simp only [Py.forIn, joinStep, h1, e]
      exact k1
    · rw [List.flatMap_cons, ← List.append_assoc]
      exact k4

/-- **C84**: corpora with the same relations are joined: the graph pairs of all files, in the order of the sorted names, each with
its banks, with the metadata of the first file.  (Before purging and writing.) -/
theorem join_reads {ps : Paths} {xml : Xml β} {fs : RelPath.FS} {cwd : List Text} {gb : Banks γ} {disk : Disk β}
    {fn : Text} {fns : List Text} {t : State γ} {ts : List (State γ)} (h : readFile ps xml fs cwd gb disk fn = .ok t)
    (hs : List.Forall₂ (fun fn t => readFile ps xml fs cwd gb disk fn = .ok t) fns ts) (hr : ∀ u ∈ ts, u.rels = t.rels) :
    ∃ j, joinFiles ps xml fs cwd gb disk (fn :: fns) = .ok j ∧ j.rels = t.rels ∧ j.meta = t.meta ∧
      List.Forall₂ (fun x q => TakenOver x.1 j x.2 q) ((t :: ts).flatMap fun t => t.pairs.map fun p => (t, p)) j.pairs := by
  obtain ⟨j, k1, k2, k3, k4⟩ := join_step_any fns ts hs t (t.pairs.map fun p => (t, p)) hr (by
    rw [List.forall₂_map_left_iff, List.forall₂_same]
    exact fun p _ => ⟨rfl, rfl, rfl⟩)
  refine ⟨j, ?_, k2, k3, by rw [List.flatMap_cons]; exact k4⟩
  unfold joinFiles
  dsimp only
  rw [h]
  exact k1

private theorem forIn_split {α δ : Type} {f : α → δ → Py δ} {l m : List α} {a b : δ} (h : Py.forIn l a f = .ok b) :
    Py.forIn (l ++ m) a f = Py.forIn m b f := by
  induction l generalizing a with
  | nil => rw [← Except.ok.inj h]; rfl
  | cons x l ih =>
    rw [List.cons_append]
    simp only [Py.forIn] at h ⊢
    cases hx : f x a with
    | error e => rw [hx] at h; cases h
    | ok c => rw [hx] at h; exact ih h

/-- **C84**: without files there is an IndexError; the first file with other relations than the first file of all is a ValueError;
the first file that cannot be read raises its exception.  Nothing is written. -/
theorem join_refused {ps : Paths} {xml : Xml β} {fs : RelPath.FS} {cwd : List Text} {gb : Banks γ} {disk : Disk β}
    {stat : String → Option Nat} {g : Bool} {glob : Text → List Text} {pats : List Text} :
    (pats.flatMap glob = [] → pgcJoin ps xml fs cwd stat gb glob g disk pats = .error .indexError) ∧
    ∀ (fn : Text) (fns rest : List Text) (x : Text) (t : State γ) (ts : List (State γ)),
      multiglob glob pats = fn :: fns ++ x :: rest → readFile ps xml fs cwd gb disk fn = .ok t →
      List.Forall₂ (fun fn t => readFile ps xml fs cwd gb disk fn = .ok t) fns ts → (∀ u ∈ ts, u.rels = t.rels) →
      (∀ e, readFile ps xml fs cwd gb disk x = .error e → pgcJoin ps xml fs cwd stat gb glob g disk pats = .error e) ∧
      (∀ u, readFile ps xml fs cwd gb disk x = .ok u → u.rels ≠ t.rels →
        pgcJoin ps xml fs cwd stat gb glob g disk pats = .error .valueError) := by
  constructor
  · intro h
    unfold pgcJoin multiglob
    rw [h, List.mergeSort_nil]
    rfl
  · intro fn fns rest x t ts hm h hs hr
    obtain ⟨j, k1, k2, -, -⟩ := join_step_any fns ts hs t (t.pairs.map fun p => (t, p)) hr (by
      rw [List.forall₂_map_left_iff, List.forall₂_same]
      exact fun p _ => ⟨rfl, rfl, rfl⟩)
    have key : ∀ e, joinStep ps xml fs cwd gb disk x j = .error e →
        pgcJoin ps xml fs cwd stat gb glob g disk pats = .error e := by
      intro e he
      unfold pgcJoin joinFiles
      rw [hm, List.cons_append]
      dsimp only
      rw [h]
      dsimp only
      rw [forIn_split k1]
      simp only [Py.forIn, he]
    constructor
    · intro e he
      exact key e (by unfold joinStep; rw [he])
    · intro u hu hne
      refine key _ ?_
      unfold joinStep addCorpus
      rw [hu]
      dsimp only
      rw [if_pos (fun hj => hne (hj.symm.trans k2))]

/-- **C84**: if pgc_join ends without an exception, no attribute of a graph pair in the files was None. -/
theorem join_complete {ps : Paths} {xml : Xml β} (hxml : Lawful xml) {fs : RelPath.FS} {cwd : List Text} {gb : Banks γ}
    {disk : Disk β} {stat : String → Option Nat} {g : Bool} {glob : Text → List Text} {pats : List Text} {fn : Text}
    {fns : List Text} {t : State γ} {ts : List (State γ)} {out : β} (hm : multiglob glob pats = fn :: fns)
    (h : readFile ps xml fs cwd gb disk fn = .ok t)
    (hs : List.Forall₂ (fun fn t => readFile ps xml fs cwd gb disk fn = .ok t) fns ts) (hr : ∀ u ∈ ts, u.rels = t.rels)
    (hrun : pgcJoin ps xml fs cwd stat gb glob g disk pats = .ok (out, none)) :
    ∀ u ∈ t :: ts, ∀ p ∈ u.pairs, Attributes u p := by
  obtain ⟨j, k1, -, -, k4⟩ := join_reads h hs hr
  unfold pgcJoin at hrun
  rw [hm, k1] at hrun
  dsimp only at hrun
  have hc : complete { j with pairs := j.pairs } = true := by
    split at hrun
    · cases hrun
    · have := writeCorpus_complete hrun
      rwa [show (PgcCp.corpus j).pairs.filterMap (fun k => j.pairs[k]?) = j.pairs from range_pairs j.pairs] at this
  intro u hu p hp
  have hread : ∃ fn, readFile ps xml fs cwd gb disk fn = .ok u := by
    rcases List.mem_cons.1 hu with rfl | hu
    · exact ⟨_, h⟩
    · obtain ⟨fn, -, h⟩ := forall₂_right hs hu
      exact ⟨fn, h⟩
  obtain ⟨fn', hread⟩ := hread
  have hI : ∃ env, ReadInv env u := by
    unfold readFile at hread
    split at hread
    · cases hread
    · split at hread
      · cases hread
      · rename_i c _
        unfold readAt at hread
        rcases k1 : Pgc.parse (envAt xml fs cwd gb fn') .sparse (xml.parse c).1 with e | s'
        · rw [k1] at hread; cases hread
        · rw [k1] at hread
          dsimp only at hread
          rcases k2 : (xml.parse c).2 with _ | e
          · rw [k2] at hread
            rw [← Except.ok.inj hread]
            exact ⟨_, readInv_sparse k1 fun e he => hxml.texts c e he⟩
          · rw [k2] at hread; cases hread
  obtain ⟨env, hI⟩ := hI
  obtain ⟨M, m, -⟩ := (hI.pairs p hp).align
  have hmem : (u, p) ∈ (t :: ts).flatMap fun t => t.pairs.map fun p => (t, p) :=
    List.mem_flatMap.2 ⟨u, hu, List.mem_map.2 ⟨p, hp, rfl⟩⟩
  obtain ⟨q, hq, T⟩ : ∃ q ∈ j.pairs, TakenOver u j p q := by
    obtain ⟨q, hq, h⟩ := forall₂_right k4.flip hmem
    exact ⟨q, hq, h⟩
  have hal : q.align = p.align := by have h := congrArg PPair.align T.rest; exact h
  obtain ⟨A1, A2⟩ := attributes_of hc hq ⟨M, hal ▸ m⟩
  refine ⟨?_, by rw [← hal]; exact A2⟩
  intro i b hi hb
  rcases hi with rfl | rfl
  · exact A1 _ b (.inl rfl) (T.source.trans hb)
  · exact A1 _ b (.inr rfl) (T.target.trans hb)

/-! ### Examples -/

/-- The text of a path, as a number. -/
def samplePlace (p : Text) : Nat := Encodable.encode (p.map Char.toNat)

private theorem samplePlace_inj {p q : Text} (h : samplePlace p = samplePlace q) : p = q :=
  List.map_injective_iff.2 (fun _ _ h => Char.toNat_inj.1 h) (Encodable.encode_injective h)

/-- All paths are paths of files. -/
def samplePaths : Paths := ⟨samplePlace, fun _ => false, fun _ => true⟩

/-- All graphs that are wanted are there. -/
def sampleBanks : Banks String := ⟨fun _ _ => .ok [], fun _ _ ids => .ok (ids.map fun i => (i, i))⟩

/-- The banks exist. -/
def sampleStat : String → Option Nat := fun p => if p = "/d/x.xml" then some 1 else some 2

/-- A graph pair with metadata and the node pairs `g`. -/
def pairA (g : Graph.G (Option String) (Option String)) : PPair String :=
  ⟨"1", "2", "s", "t", none, none, .mk "graph_meta_data" [] none none [.mk "note" [] (some "hi".toList) none []], g⟩

/-- A graph pair without. -/
def pairB : PPair String := ⟨"2", "1", "u", "v", none, none, .mk "graph_meta_data" [] none none [], Graph.empty⟩

/-- Two graph pairs, the first with one node pair and metadata. -/
def sampleState (g : Graph.G (Option String) (Option String)) : State String where
  relations := ["equals"]
  shared := true
  banks := [(some "1", ⟨"/d/x.xml".toList, some "graphml", false, [], []⟩), (some "2", ⟨"/y/y.xml".toList, some "graphml", false, [], []⟩)]
  pairs := [pairA g, pairB]

private theorem place_of {l : List Text} (h : ∀ n ∈ l, n ≠ [] ∧ '/' ∉ n ∧ n ≠ ['.'] ∧ n ≠ ['.', '.']) :
    Spec.RelPath.Place PgcCp.sampleFS.link l := by
  intro l1 n l2 e
  obtain ⟨h1, h2, h3, h4⟩ := h n (by rw [e]; simp)
  exact ⟨⟨h1, h2⟩, h3, h4, rfl⟩

private theorem sample_ready : ∃ g, GraphPair.getAlign g (some "n") (some "m") = .ok (some (some "equals")) ∧
    Ready PgcCp.sampleXml.ws PgcCp.sampleFS sampleBanks sampleStat (sampleState g) := by
  have h11 : (Spec.Alignment.none : Spec.Alignment (Option String) (Option String)).OneToOne := by
    intro a b a' b' h; simp [Spec.Alignment.none] at h
  obtain ⟨g, -, hg⟩ := (GraphPair.Al.empty (κ := Option String) (ρ := Option String)).wed h11 (some "n") (some "m") (some "equals")
  have hpath : ∀ b, (∃ k, (sampleState g).banks.get? k = some b) →
      b.format = some "graphml" ∧ (b.path = "/d/x.xml".toList ∨ b.path = "/y/y.xml".toList) := by
    rintro b ⟨k, hk⟩
    have := AD.mem_of_get? hk
    simp only [sampleState, List.mem_cons, Prod.mk.injEq, List.not_mem_nil, or_false] at this
    rcases this with ⟨-, rfl⟩ | ⟨-, rfl⟩
    · exact ⟨rfl, .inl rfl⟩
    · exact ⟨rfl, .inr rfl⟩
  have hused : ∀ b, Used (sampleState g) b →
      b.format = some "graphml" ∧ (b.path = "/d/x.xml".toList ∨ b.path = "/y/y.xml".toList) := by
    rintro b ⟨_, _, _, _, hb⟩
    exact hpath b ⟨_, hb⟩
  have hpairs : ∀ p ∈ (sampleState g).pairs, p = pairA g ∨ p = pairB := by
    intro p hp
    simpa [sampleState] using hp
  refine ⟨g, ?_, ⟨?_, ?_, ?_, ?_, fun k b _ => ⟨b.path, rfl⟩⟩, ?_, ⟨?_, ?_, ?_, ?_, ?_, ?_, ?_, ?_, ?_⟩, ?_, ?_⟩
  · rw [hg.get]; simp [Spec.Alignment.wed]
  · change List.Nodup [some "1", some "2"]; decide
  · intro p hp
    rcases hpairs p hp with rfl | rfl
    · exact ⟨⟨by simp [pairA], by simp [pairA]⟩, ⟨rfl, rfl⟩, ⟨_, hg, GraphPair.oneToOne_wed h11 _ _ _⟩, rfl, rfl⟩
    · exact ⟨⟨by decide, by decide⟩, ⟨rfl, rfl⟩, ⟨_, GraphPair.Al.empty, h11⟩, rfl, rfl⟩
  · intro e he; cases he
  · intro r hr
    obtain rfl : r = "equals" := by simpa [sampleState] using hr
    decide +kernel
  · intro k b hk
    rcases (hpath b ⟨k, hk⟩).2 with h | h
    · exact ⟨["d".toList, "x.xml".toList], place_of (by decide), h.trans (by decide)⟩
    · exact ⟨["y".toList, "y.xml".toList], place_of (by decide), h.trans (by decide)⟩
  · intro b hb
    exact ⟨_, (hused b hb).1, by decide⟩
  · intro b b' hb hb' _
    rw [(hused b hb).1, (hused b' hb').1]
  · intro b b' _ _
    right
    constructor <;> (unfold sampleStat; split <;> rfl)
  · intro p hp x y v hv
    rcases hpairs p hp with rfl | rfl
    · rw [show (pairA g).align = g from rfl, hg.get] at hv
      have hv := Except.ok.inj hv
      unfold Spec.Alignment.wed at hv
      split at hv
      · rename_i hxy
        rw [hxy.1, hxy.2]
        obtain rfl := Option.some.inj hv
        exact ⟨rfl, rfl, rfl⟩
      · split at hv
        · cases hv
        · simp [Spec.Alignment.none] at hv
    · rw [show pairB.align = Graph.empty from rfl, GraphPair.Al.empty.get] at hv
      have hv := Except.ok.inj hv
      simp [Spec.Alignment.none] at hv
  · change List.Pairwise (· ≤ ·) ["equals"]
    simp
  · change "" ∉ ["equals"]
    decide
  · intro p hp
    rcases hpairs p hp with rfl | rfl
    · exact PgcCp.foreign_of [.mk "note" [] (some "hi".toList) none []] (by simp [Elem.tag, Elem.children, Spec.Pgc.tags])
    · trivial
  · intro e he; cases he
  · intro b l hb hl
    apply PgcCp.noBlank_path
    rw [← hl]
    rcases (hused b hb).2 with h | h
    · rw [h]; decide +kernel
    · rw [h]; decide +kernel
  · intro p hp b b' h1 h2 hf
    rcases hpairs p hp with rfl | rfl
    · simp [pairA]
    · decide
  · intro b _ ids _
    refine ⟨_, rfl, fun i hi => ?_⟩
    rw [← AD.mem_keys_iff]
    unfold AD.keys
    rw [List.map_map]
    exact List.mem_map.2 ⟨i, hi, rfl⟩

/-- For every number of graph pairs there is a corpus file in a situation where it can be split. -/
theorem sample_situation (n : Nat) : ∃ disk s, Situation samplePaths PgcCp.sampleXml PgcCp.sampleFS PgcCp.sampleCwd sampleStat
    sampleBanks disk "c.pgc".toList "c".toList ".pgc".toList s ∧ s.pairs.length = n ∧
    (∀ h : 0 < s.pairs.length, GraphPair.getAlign s.pairs[0].align (some "n") (some "m") = .ok (some (some "equals"))) := by
  obtain ⟨g, hg, hr⟩ := sample_ready
  have hl : ∀ k ∈ (List.range n).map (· % 2), k < (sampleState g).pairs.length := by
    intro k hk
    obtain ⟨i, -, rfl⟩ := List.mem_map.1 hk
    exact Nat.mod_lt _ (by decide)
  obtain ⟨ld, hld⟩ := Option.isSome_iff_exists.1 (PgcCp.sample_loops PgcCp.sampleCwd (PosixPath.dirname "c.pgc".toList))
  have hd : RelPath.realpath PgcCp.sampleFS PgcCp.sampleCwd (PosixPath.dirname "c.pgc".toList) = some (RelPath.render ld) := by
    unfold RelPath.realpath; rw [hld]; rfl
  obtain ⟨out, -, t, h1, h2, h3⟩ := reads_back PgcCp.sample_lawful rfl rfl PgcCp.sample_place PgcCp.sample_place hd hd hr
    (part_made hr.copy.sorted hl) false
  rw [show (part (sampleState g) ((List.range n).map (· % 2))).2.pairs = (List.range n).map (· % 2) from rfl] at h2
  refine ⟨fun _ => some out, t, ⟨PgcCp.sample_lawful, rfl, rfl, PgcCp.sample_place, PgcCp.sample_loops _, ⟨out, rfl, rfl, h1⟩,
    h3.copy, h3.load, .inl ⟨"pgc".toList, rfl, rfl, by decide, by decide, [], 'c', [], rfl, by decide, by decide⟩,
    fun _ _ _ _ => ⟨rfl, rfl⟩, fun _ _ _ _ _ _ _ _ h => samplePlace_inj h⟩, ?_, ?_⟩
  · rw [← h2.pairs.length_eq, filterMap_ids _ hl, List.length_map, List.length_range]
  · intro h
    have hn : 0 < n := by
      rw [← h2.pairs.length_eq, filterMap_ids _ hl, List.length_map, List.length_range] at h
      exact h
    obtain ⟨m, rfl⟩ : ∃ m, n = m + 1 := ⟨n - 1, by omega⟩
    have hp := h2.pairs
    have he : (List.range (m + 1)).map (· % 2) = 0 :: (List.range m).map (fun i => (i + 1) % 2) := by
      rw [List.range_succ_eq_map]; simp
    rw [he] at hp
    rw [List.filterMap_cons] at hp
    change List.Forall₂ _ (pairA g :: _) _ at hp
    obtain ⟨q, l, hq, -, hql⟩ := List.forall₂_cons_left_iff.1 hp
    simp only [hql, List.getElem_cons_zero]
    rw [hq.align]
    exact hg

-- the conditions of `split_files`, `split_join` and `wrong_order` are met
example : ∃ (disk : Disk (Option Elem)) (s : State String) (d : Disk (Option Elem)) (names : List Text), s.pairs.length = 5 ∧
    names.length = 3 ∧ pgcSplit samplePaths PgcCp.sampleXml PgcCp.sampleFS PgcCp.sampleCwd sampleStat sampleBanks false 2 (some 2)
      disk "c.pgc".toList = (d, none) ∧
    ∃ out t, pgcJoin samplePaths PgcCp.sampleXml PgcCp.sampleFS PgcCp.sampleCwd sampleStat sampleBanks (fun _ => names.reverse) true d
        ["c_*".toList] = .ok (out, none) ∧
      readAt PgcCp.sampleXml PgcCp.sampleFS PgcCp.sampleCwd sampleBanks "joined.pgc".toList out = .ok t ∧
      Same (Kept PgcCp.sampleXml.ws true) sampleStat s s.pairs t := by
  obtain ⟨disk, s, S, h1, -⟩ := sample_situation 5
  obtain ⟨d, names, parts, k1, k2, k3⟩ := split_join S (cwd' := PgcCp.sampleCwd) (count := 2) (size := some 2) (n := 2)
    (.inl ⟨rfl, by omega⟩) (by intro h; rw [h] at h1; simp at h1) (by omega) PgcCp.sample_place false true
  obtain ⟨out, o1, o2⟩ := k3 (fun _ => names.reverse) ["c_*".toList] (by simpa using List.reverse_perm names)
  obtain ⟨t, o3, o4⟩ := o2 "joined.pgc".toList (by decide)
  refine ⟨disk, s, d, names, h1, ?_, k1, out, t, o1, o3, o4⟩
  have hp := k2.part
  have hlen := congrArg List.length k2.all
  rw [h1] at hlen
  rw [k2.length]
  rcases parts with _ | ⟨a, _ | ⟨b, _ | ⟨c, _ | ⟨d, l⟩⟩⟩⟩
  · simp at hlen
  · have := (hp 0 (by simp)).2.1
    simp at this hlen
    omega
  · have h0 := (hp 0 (by simp)).2.1
    have h1 := (hp 1 (by simp)).2.1
    simp at h0 h1 hlen
    omega
  · rfl
  · have h0 := (hp 0 (by simp)).2.2 (by simp)
    have h1 := (hp 1 (by simp)).2.2 (by simp)
    have h2 := (hp 2 (by simp)).2.2 (by simp)
    have h3 := (hp 3 (by simp)).1
    simp at h0 h1 h2 h3 hlen
    omega
example : ∃ (disk : Disk (Option Elem)) (s : State String), s.pairs.length = 15000 ∧ Situation samplePaths PgcCp.sampleXml
    PgcCp.sampleFS PgcCp.sampleCwd sampleStat sampleBanks disk "c.pgc".toList "c".toList ".pgc".toList s := by
  obtain ⟨disk, s, S, h1, -⟩ := sample_situation 15000
  exact ⟨disk, s, h1, S⟩

end Verif.Props.SplitJoin
