import Verif.Model.HitaextDoc

/-! Model of lib/daeso/ptc/diff.py:35-100.  A corpus is its Hitaext document together with the two documents that it
names, as parsed.  What is printed is a list of entries; the encoding of the output is left out, and so are the entries
printed before an exception. -/
namespace Verif.PtcDiff
open Verif Verif.IElemTree Verif.HitaextDoc Verif.Etree

/-- A parallel text corpus: Hitaext document, source document and target document. -/
structure Corpus where
  doc : Hitaext
  source : Tree
  target : Tree

/-- A corpus that was read: the indexed documents. -/
structure Indexed where
  source : Doc
  target : Doc

/-- diff.py:90-100 `read_corpus`; `update()` is called without tags to ignore or to end with a line break. -/
def readCorpus (ws : Char → Bool) (c : Corpus) : Py Indexed := do
  let F := update { ws := ws } c.source fresh
  let T := update { ws := ws } c.target fresh
  let s ← inject c.doc (F.st, T.st)
  return ⟨{ F with st := s.1 }, { T with st := s.2 }⟩

/-- Which corpus has the alignment. -/
inductive Side where
  | trueOnly
  | predOnly
  deriving DecidableEq

/-- What is printed about an alignment: number, heading, ids of the elements and their texts. -/
structure Entry where
  number : Nat
  side : Side
  fromId : Option String
  toId : Option String
  fromText : Text
  toText : Text
  deriving DecidableEq

/-- `elem.get("id")` for the elements in `_alignments`. -/
def idsOf (t : Tree) : List Nat → Py (List (Option String))
  | [] => .ok []
  | b :: l => do
    let e ← elemAt t b
    let r ← idsOf t l
    return e.id :: r

/-- diff.py:58-70 (and 74-86 with the corpora exchanged): the alignment of element `a` of the first corpus with element
`x` is printed if the id of `x` does not occur among the alignments of element `b` of the second one. -/
def onlyStep (side : Side) (C D : Indexed) (a b x : Nat) (s : Nat × List Entry) : Py (Nat × List Entry) := do
  let e ← elemAt C.target.root x
  let others ← idsOf D.target.root (D.source.st.aligns b)
  if e.id ∈ others then return s
  else
    let f ← elemAt C.source.root a
    return (s.1 + 1, s.2 ++ [⟨s.1 + 1, side, f.id, e.id, getElemText C.source a, getElemText C.target x⟩])

/-- diff.py:56-70 (and 72-86): the loop over the alignments. -/
def onlyIn (side : Side) (C D : Indexed) (a b : Nat) (s : Nat × List Entry) : Py (Nat × List Entry) :=
  Py.forIn (C.source.st.aligns a) s (onlyStep side C D a b)

/-- diff.py:56-86: the loop body. -/
def bothWays (T P : Indexed) (x : Nat × Nat) (s : Nat × List Entry) : Py (Nat × List Entry) := do
  let s ← onlyIn .trueOnly T P x.1 x.2 s
  onlyIn .predOnly P T x.2 x.1 s

/-- diff.py:35-86 `print_diff`. -/
def printDiff (ws : Char → Bool) (true' pred : Corpus) (tag : String) : Py (List Entry) := do
  let T ← readCorpus ws true'
  let P ← readCorpus ws pred
  let as ← T.source.st.count.get tag
  let bs ← P.source.st.count.get tag
  let s ← Py.forIn (as.zip bs) (0, []) (bothWays T P)
  return s.2

end Verif.PtcDiff
