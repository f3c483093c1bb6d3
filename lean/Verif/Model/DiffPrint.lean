import Verif.Model.PgcDiff
import Verif.Model.Phrases
import Verif.Model.EvalPrint

/-! Model of lib/daeso/pgc/diff.py:36-180 and lib/daeso/utils/report.py:29-37 with their output: what `pgc_diff` prints.
Texts are sequences of characters: what is written is their UTF-8 encoding.  Strings of corpora are those of ElementTree, byte
strings if they are ASCII and unicode strings otherwise; the names of annotators and corpora are byte strings.  `num` is
`int` of a node, `ws` white space, and `repr` the text of a list. -/
namespace Verif.DiffPrint
open Verif Verif.Etree Verif.PgcDiff Verif.DaesoGraph Verif.AlignPrint

/-- What pgc_diff uses of two graph pairs: their alignments, the graphs of the first and their meta data. -/
structure Texts where
  both : Both
  source : DG String
  target : DG String
  meta1 : Option Elem
  meta2 : Option Elem

/-- The parameters of pgc_diff. -/
structure Opts where
  corpusName1 : Text
  corpusName2 : Text
  annot1 : Text
  annot2 : Text
  wordsOnly : Bool
  showComments : Bool
  showIdent : Bool
  relations : Option (List String)

/-- report.py:29-37 `header(head, s, width, char)`: written to `s` if it is given, and otherwise only returned. -/
def header (head : Text) (given : Bool) (width : Nat) (char : Char) : Out :=
  (if given then List.replicate width char ++ ['\n'] ++ head ++ ['\n'] ++ List.replicate width char ++ "\n\n".toList else [],
    none)

/-- `graph.node[n][key]`. -/
def nodeAttr (g : DG String) (n key : String) : Py Val :=
  match g.graph.node.get n with
  | .error e => .error e
  | .ok a => (g.graph.nheap a).get key

/-- All characters are ASCII. -/
def ascii (t : Text) : Bool := t.all fun c => c.toNat < 128

/-- `"%s" % v`. -/
def shown (repr : List String → Text) : Val → Text
  | .none => "None".toList
  | .str s => s.toList
  | .toks l => repr l

/-- `"%s" % v` of a string or None. -/
def shownText : Option Text → Text
  | none => "None".toList
  | some t => t

/-- `v.encode("utf-8")`: only strings have this method. -/
def encoded : Val → Py Text
  | .str s => .ok s.toList
  | _ => .error .attributeError

/-- diff.py:149, 157: `'(%s) %s [%s:%s]: "%s"'`. -/
def nodeLine (n label b e phrase : Text) : Text :=
  "(".toList ++ n ++ ") ".toList ++ label ++ " [".toList ++ b ++ ":".toList ++ e ++ "]: \"".toList ++ phrase ++ "\"".toList

/-- diff.py:149-155: the line of a source node.  The label is encoded before it is filled in; a label that is not ASCII raises
an exception either there or when the line is encoded. -/
def sourceLine (repr : List String → Text) (g : DG String) (n : String) : Py Text := do
  let label ← nodeAttr g n "label"
  let label ← encoded label
  let b ← nodeAttr g n "begin"
  let e ← nodeAttr g n "end"
  if ascii label then
    return nodeLine n.toList label (shown repr b) (shown repr e) (shownText (Phrases.tokenString g n))
  else .error .unicodeError

/-- diff.py:157-163: the line of a target node. -/
def targetLine (repr : List String → Text) (g : DG String) (n : String) : Py Text := do
  let label ← nodeAttr g n "label"
  let b ← nodeAttr g n "begin"
  let e ← nodeAttr g n "end"
  return nodeLine n.toList (shown repr label) (shown repr b) (shown repr e) (shownText (Phrases.tokenString g n))

/-- `str(relation)`: UnicodeEncodeError if it is not ASCII. -/
def strRel : Option String → Py Text
  | none => .ok "None".toList
  | some r => if ascii r.toList then .ok r.toList else .error .unicodeError

/-- An exception, or more output. -/
def after {α : Type} (x : Py α) (f : α → Out) : Out := match x with
  | .error e => ([], some e)
  | .ok a => f a

/-- `print` writes a space before the next item, unless the last one ended with other white space. -/
def gap (t : Text) : Text := match t.getLast? with
  | none => [' ']
  | some c => if c ∈ ['\t', '\n', '\x0b', '\x0c', '\r'] then [] else [' ']

/-- The items of a `print` statement. -/
def items : List Text → Text
  | [] => []
  | [t] => t
  | t :: ts => t ++ gap t ++ items ts

/-- `print >>out, t1, t2, ...`. -/
def put (l : List Text) : Out := (items l ++ ['\n'], none)

/-- diff.py:142-164: one aligned pair of nodes. -/
def printEntry (repr : List String → Text) (p : Texts) (count : Nat) (n : Nodes) : Out :=
  after (do let r ← GraphPair.getAlign p.both.first n.1 n.2; strRel r) fun rel1 =>
  after (do let r ← GraphPair.getAlign p.both.second n.1 n.2; strRel r) fun rel2 =>
  Out.andThen (put ["#".toList ++ str count ++ ":".toList])
    (after (sourceLine repr p.source n.1) fun s => Out.andThen (put [s])
      (Out.andThen (put ["<<<".toList, rel1.map Char.toUpper, "/".toList, rel2.map Char.toUpper, ">>>".toList])
        (after (targetLine repr p.target n.2) fun t => put [t ++ ['\n']])))

/-- diff.py:142-164: the loop; `align_count` is that of the last one. -/
def printEntries (repr : List String → Text) (p : Texts) : Nat → List Nodes → Out
  | _, [] => ([], none)
  | count, n :: l => Out.andThen (printEntry repr p (count + 1) n) (printEntries repr p (count + 1) l)

/-- diff.py:137-166 `print_alignments`. -/
def printAlignments (repr : List String → Text) (p : Texts) (title : Text) (count : Nat) (l : List Nodes) : Out :=
  if l = [] then ([], none) else Out.andThen (header title true 80 '-') (printEntries repr p count l)

/-- diff.py:112-129: sort and print one section, and what follows with the new count. -/
def printSection (num : String → Option Int) (repr : List String → Text) (p : Texts) (title : Text) (count : Nat) (l : List Nodes)
    (rest : Nat → Out) : Out :=
  after (sortNodes num l) fun l => Out.andThen (printAlignments repr p title count l) (rest (count + l.length))

/-- diff.py:170-180 `print_comments`.  `None.find` and `None.text` raise an AttributeError that is caught, `None.strip` one that
is not. -/
def printComments (ws : Char → Bool) (m : Option Elem) (annot : Text) : Out :=
  match m.bind fun e => e.children.find? fun c => c.tag = "comment" with
  | none => ([], none)
  | some c => match c.text with
    | none => ([], some .attributeError)
    | some t => if strip ws t = [] then ([], none)
      else Out.andThen (header ("Comments by ".toList ++ annot) true 80 '-') (put [t, ['\n']])

/-- diff.py:107-108 `print >>out, graph.get_graph_token_string().encode("utf-8"), "\n"`. -/
def printTokens (g : DG String) : Out := match g.tokens with
  | none => ([], some .attributeError)
  | some l => put [getGraphTokenString (l.map String.toList), ['\n']]

/-- diff.py:64-130: one graph pair, numbered `pairs`; what follows gets the new `align_count`.  The head of the graph pair
is returned by `header`, which is not given a stream. -/
def printPair (num : String → Option Int) (ws : Char → Bool) (repr : List String → Text) (o : Opts) (relations : List String)
    (p : Texts) (pairs count : Nat) (rest : Nat → Out) : Out :=
  if p.both.same then
    after (parts o.wordsOnly relations p.both) fun q =>
    Out.andThen (header ("Graph pair ".toList ++ str pairs) false 120 '=')
    (Out.andThen (printTokens p.source)
    (Out.andThen (printTokens p.target)
    (Out.andThen (if o.showComments then Out.andThen (printComments ws p.meta1 o.annot1) (printComments ws p.meta2 o.annot2) else ([], none))
    ((if o.showIdent then printSection num repr p "Identical".toList count q.ident else fun f => f count) fun count =>
      printSection num repr p "Relation different".toList count q.relDiff fun count =>
      printSection num repr p (o.annot1 ++ " only".toList) count q.uniq1 fun count =>
      printSection num repr p (o.annot2 ++ " only".toList) count q.uniq2 rest))))
  else ([], some .assertionError)

/-- diff.py:64-130: the loop. -/
def printPairs (num : String → Option Int) (ws : Char → Bool) (repr : List String → Text) (o : Opts) (relations : List String) :
    List Texts → Nat → Nat → Out
  | [], _, _ => ([], none)
  | p :: ps, pairs, count => printPair num ws repr o relations p (pairs + 1) count fun count =>
      printPairs num ws repr o relations ps (pairs + 1) count

/-- diff.py:36-130 `pgc_diff`, for corpora with `n1` and `n2` graph pairs, the first with the relations `relations1`. -/
def pgcDiff (num : String → Option Int) (ws : Char → Bool) (repr : List String → Text) (o : Opts) (relations1 : List String)
    (n1 n2 : Nat) (ps : List Texts) : Out :=
  if n1 ≠ n2 then ([], some .assertionError)
  else Out.andThen (header (o.annot1 ++ " corpus: ".toList ++ o.corpusName1 ++ "\n".toList ++ o.annot2 ++ " corpus: ".toList ++
      o.corpusName2) false 120 '#')
    (printPairs num ws repr o (compared o.relations relations1) ps 0 0)

end Verif.DiffPrint
