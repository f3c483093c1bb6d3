import Verif.Model.HitaextDoc
import Verif.PyNum

/-! Model of lib/daeso/ptc/textalign.py:83-463.  Scores are real numbers.  Term, weight and similarity functions are
parameters; the attributes `_terms` and `_weights` are always set before they are read, and modelled as values. -/
namespace Verif.TextAlign
open Verif Verif.Etree Verif.IElemTree Verif.HitaextDoc

/-- A scored pair of elements: score, source, target (textalign.py:256-257). -/
abbrev Scored := ℝ × Nat × Nat

/-- textalign.py:405-415 `weighted_cosine_sim`; without weights `zip(None, ..)` raises. -/
noncomputable def weightedCosine : Option (List ℝ) → Option (List ℝ) → Py ℝ
  | some v, some w =>
    Py.catchZeroDiv 0 (Py.divR (List.zipWith (· * ·) v w).sum
      (Real.sqrt ((v.map fun x => x ^ 2).sum * (w.map fun x => x ^ 2).sum)))
  | _, _ => .error .typeError

open Classical in
/-- textalign.py:425-432 `threshold_filter_factory`. -/
noncomputable def thresholdFilter (t : ℝ) (scores : List Scored) : List Scored :=
  scores.filter fun x => decide (x.1 > t)

/-- textalign.py:451-455: is the pair (i, j) crossed by an earlier one? -/
def crossed (i j : Nat) (l : List (Nat × Nat)) : Bool :=
  l.any fun p => (decide (p.1 < i) && decide (p.2 > j)) || (decide (p.1 > i) && decide (p.2 < j))

open Classical in
/-- textalign.py:444-458: the loop over the sorted scores; `n`, `n'` are the attributes `_n` of source and target. -/
noncomputable def noCrossLoop (t : ℝ) (n n' : Nat → Nat) : List Scored → List (Nat × Nat) → List Scored → List Scored
  | [], _, out => out
  | x :: xs, idx, out =>
    if x.1 < t then out
    else if crossed (n x.2.1) (n' x.2.2) idx then noCrossLoop t n n' xs idx out
    else noCrossLoop t n n' xs (idx ++ [(n x.2.1, n' x.2.2)]) (out ++ [x])

/-- textalign.py:435-463 `no_cross_filter_factory`.  `sort` is `scores.sort(reverse=True)`; it compares equal scores
by the addresses of objects, so their order is not determined. -/
noncomputable def noCrossFilter (sort : List Scored → List Scored) (t : ℝ) (n n' : Nat → Nat) (scores : List Scored) :
    List Scored := noCrossLoop t n n' (sort scores) [] []

/-- textalign.py:291-295 `clear_alignments`. -/
def clearAlignments (d : Hitaext) (source target : String) : Hitaext :=
  { d with links := d.links.filter fun l => decide (l.fromTag ≠ some source ∧ l.toTag ≠ some target) }

/-- The settings and functions of a TextAligner (textalign.py:167-194). -/
structure Config (τ ω : Type) where
  focusS : String
  focusT : String
  scope : Option (List String × List String)
  ignoreS : List String
  ignoreT : List String
  ws : Char → Bool
  term : Text → τ
  weight : List τ → Py (List ω)
  sim : τ → τ → ω → ω → Py ℝ
  filter : (Nat → Nat) → (Nat → Nat) → List Scored → Py (List Scored)

variable {τ ω : Type}

/-- xml.etree `elem.findall(".//" + tag)`: descendants, the element itself excluded. -/
def findall (e : Tree) (tag : String) : List Tree := (iter e).tail.filter fun x => x.tag = tag

/-- textalign.py:210-223 `_determine_focus_elems`, for one side. -/
def focusElems (d : Doc) (scope : Tree) (tag : String) : List Tree :=
  (findall scope tag).filter fun e => !d.st.ignored e.addr

/-- textalign.py:251-257: the score of a pair of elements with their terms and weights. -/
def pairScore (sim : τ → τ → ω → ω → Py ℝ) (s t : Tree × τ × ω) : Py Scored :=
  match sim s.2.1 t.2.1 s.2.2 t.2.2 with
  | .ok r => .ok (r, s.1.addr, t.1.addr)
  | .error e => .error e

/-- textalign.py:246-259 `_score_sim`. -/
def scoreSim (sim : τ → τ → ω → ω → Py ℝ) : List (Tree × τ × ω) → List (Tree × τ × ω) → Py (List Scored)
  | [], _ => .ok []
  | s :: ss, ts =>
    match ts.mapM (pairScore sim s) with
    | .error e => .error e
    | .ok row => match scoreSim sim ss ts with
      | .ok rest => .ok (row ++ rest)
      | .error e => .error e

/-- textalign.py:226-259: terms, weights and scores within a pair of scope elements.  Faithful for weight functions
that return a weight per element, as those of the module do: with fewer, Python would use leftover weights. -/
def scores (c : Config τ ω) (dF dT : Doc) (ss ts : List Tree) : Py (List Scored) :=
  let terms := ss.map (fun e => c.term (getElemText dF e.addr)) ++ ts.map (fun e => c.term (getElemText dT e.addr))
  match c.weight terms with
  | .error e => .error e
  | .ok ws =>
    let all := (ss ++ ts).zip (terms.zip ws)
    scoreSim c.sim (all.take ss.length) (all.drop ss.length)

/-- textalign.py:266-275 `_create_alignments`. -/
def createAlignments (s : St) (l : List Scored) : St :=
  l.foldl (fun s x => if x.2.2 ∈ s.aligns x.2.1 then s
    else { s with aligns := put s.aligns x.2.1 (s.aligns x.2.1 ++ [x.2.2]) }) s

/-- textalign.py:197-207 `_align_within_scope`. -/
def alignWithin (c : Config τ ω) (dF dT : Doc) (S T : Tree) : Py Doc :=
  let ss := focusElems dF S c.focusS
  let ts := focusElems dT T c.focusT
  if ss = [] ∨ ts = [] then .ok dF
  else match scores c dF dT ss ts with
    | .error e => .error e
    | .ok l => match c.filter (fun a => (dF.st.n a).getD 0) (fun a => (dT.st.n a).getD 0) l with
      | .error e => .error e
      | .ok l' => .ok { dF with st := createAlignments dF.st l' }

/-- textalign.py:128-134: the inner loop, over the alignments of one scope element.  The list it runs over does not
change meanwhile, as only descendants of the element get alignments. -/
def alignScope (c : Config τ ω) (scopeT : List String) (dT : Doc) (S : Tree) (dF : Doc) : Py Doc :=
  Py.forIn (dF.st.aligns S.addr) dF fun b dF =>
    match elemAt dT.root b with
    | .error e => .error e
    | .ok T => if T.tag ∉ scopeT then .ok dF else alignWithin c dF dT S T

/-- textalign.py:124-134: the loop over the scope elements. -/
def alignScopes (c : Config τ ω) (scopeS scopeT : List String) (dF dT : Doc) : Py Doc :=
  Py.forIn (iter dF.root) dF fun S dF => if S.tag ∉ scopeS then .ok dF else alignScope c scopeT dT S dF

/-- textalign.py:111-119: the scope tags, and the alignment of the roots when there are none. -/
def scopeTags (c : Config τ ω) (dF dT : Doc) : List String × List String × Doc :=
  match c.scope with
  | some (s, t) => (s, t, dF)
  | none => ([dF.root.tag], [dT.root.tag],
      { dF with st := { dF.st with aligns := put dF.st.aligns dF.root.addr [dT.root.addr] } })

/-- textalign.py:83-140 `align_corpus`, with documents read from the corpus: `tF` and `tT` are the parsed files. -/
def alignCorpus (c : Config τ ω) (d : Hitaext) (clear : Bool) (tF tT : Tree) : Py Hitaext :=
  let d := if clear then clearAlignments d c.focusS c.focusT else d
  let dF := update { ignoreTags := c.ignoreS, ws := c.ws } tF fresh
  let dT := update { ignoreTags := c.ignoreT, ws := c.ws } tT fresh
  match inject d (dF.st, dT.st) with
  | .error e => .error e
  | .ok (F, T) =>
    let sc := scopeTags c { dF with st := F } { dT with st := T }
    match alignScopes c sc.1 sc.2.1 sc.2.2 { dT with st := T } with
    | .error e => .error e
    | .ok dF' => extract tF tT dF'.st T d

end Verif.TextAlign
