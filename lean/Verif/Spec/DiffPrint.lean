import Verif.Model.DiffPrint
import Verif.Spec.AlignPrint
import Verif.Spec.Difference

/-! What a printed difference report looks like (C77). -/
namespace Verif.Spec.DiffPrint
open Verif Verif.Etree Verif.DaesoGraph Verif.PgcDiff Verif.Spec.AlignPrint

/-- What a report shows of a node. -/
structure Node where
  label : String
  first : String
  last : String
  tokens : List String

/-- The node of the graph has these attributes. -/
def Describes (g : DG String) (n : String) (x : Node) : Prop :=
  ∃ a, g.graph.node.get? n = some a ∧ (g.graph.nheap a).get? "label" = some (.str x.label) ∧
    (g.graph.nheap a).get? "begin" = some (.str x.first) ∧ (g.graph.nheap a).get? "end" = some (.str x.last) ∧
    (g.graph.nheap a).get? "tokens" = some (.toks x.tokens)

/-- Words with a space between them. -/
def words (l : List String) : Text := [' '].intercalate (l.map String.toList)

/-- The line of a node. -/
def nodeText (n : String) (x : Node) : Text :=
  ("(" ++ n ++ ") " ++ x.label ++ " [" ++ x.first ++ ":" ++ x.last ++ "]: \"").toList ++ words x.tokens ++ ['"']

/-- A relation in capitals; NONE if there is none. -/
def relText : Option String → Text
  | none => "NONE".toList
  | some r => r.toList.map Char.toUpper

/-- The text has only ASCII characters. -/
def Ascii (t : String) : Prop := ∀ c ∈ t.toList, c.toNat < 128

/-- The text ends with a line break or a tab. -/
def Broken (t : Text) : Prop := ∃ c ∈ t.getLast?, c = '\t' ∨ c = '\n' ∨ c = '\x0b' ∨ c = '\x0c' ∨ c = '\r'

/-- The lines of an aligned pair of nodes: its number, the source node, the relations in both corpora and the target node. -/
def EntryShows (source target : DG String) (e : Entry) (t : Text) : Prop :=
  ∃ x y, Describes source e.nodes.1 x ∧ Describes target e.nodes.2 y ∧
    t = ended [("#".toList ++ decimal e.number ++ ":".toList), nodeText e.nodes.1 x,
      "<<< ".toList ++ relText e.rel1 ++ " / ".toList ++ relText e.rel2 ++ " >>>".toList, nodeText e.nodes.2 y, []]

/-- Both nodes have all attributes. -/
def Described (source target : DG String) (e : Entry) : Prop :=
  (∃ x, Describes source e.nodes.1 x) ∧ ∃ y, Describes target e.nodes.2 y

/-- The label of the source node and the relations are ASCII. -/
def Plain (source : DG String) (e : Entry) : Prop :=
  (∀ x, Describes source e.nodes.1 x → Ascii x.label) ∧ ∀ r, e.rel1 = some r ∨ e.rel2 = some r → Ascii r

/-- A title between rules, and an empty line. -/
def head (title : Text) : Text := ended [List.replicate 80 '-', title, List.replicate 80 '-', []]

/-- The title of a section. -/
def titleText (annot1 annot2 : Text) : Title → Text
  | .identical => "Identical".toList
  | .relationDifferent => "Relation different".toList
  | .only1 => annot1 ++ " only".toList
  | .only2 => annot2 ++ " only".toList

/-- A section: its title, and its aligned pairs of nodes. -/
def SectionShows (annot1 annot2 : Text) (source target : DG String) (x : Title × List Entry) (t : Text) : Prop :=
  ∃ ts, List.Forall₂ (EntryShows source target) x.2 ts ∧ t = head (titleText annot1 annot2 x.1) ++ ts.flatten

/-- A text that is followed by a space (unless it ends with a line break or tab) and an empty line. -/
def Paragraph (p t : Text) : Prop := (Broken p → t = p ++ "\n\n".toList) ∧ (¬ Broken p → t = p ++ " \n\n".toList)

/-- The meta data have a comment with this text. -/
def HasComment (m : Option Elem) (c : Option Text) : Prop :=
  ∃ e before x after, m = some e ∧ e.children = before ++ x :: after ∧ (∀ y ∈ before, y.tag ≠ "comment") ∧ x.tag = "comment" ∧
    x.text = c

/-- What is shown of the comments in the meta data: nothing if there are none or if they are blank. -/
def CommentShows (ws : Char → Bool) (annot : Text) (m : Option Elem) (t : Text) : Prop :=
  (∀ c, HasComment m (some c) → (∃ a ∈ c, ws a = false) →
    ∃ p, Paragraph c p ∧ t = head ("Comments by ".toList ++ annot) ++ p) ∧
  ((∀ c, HasComment m (some c) → ∀ a ∈ c, ws a = true) → t = [])

/-- The report of two graph pairs: the sentences, the comments and the sections. -/
def PairShows (ws : Char → Bool) (annot1 annot2 : Text) (comments : Bool) (p : DiffPrint.Texts) (secs : List (Title × List Entry))
    (t : Text) : Prop :=
  ∃ s s' c c' ts, (∃ l, p.source.tokens = some l ∧ Paragraph (words l) s) ∧ (∃ l, p.target.tokens = some l ∧ Paragraph (words l) s') ∧
    (if comments then CommentShows ws annot1 p.meta1 c ∧ CommentShows ws annot2 p.meta2 c' else c = [] ∧ c' = []) ∧
    List.Forall₂ (SectionShows annot1 annot2 p.source p.target) secs ts ∧ t = s ++ s' ++ c ++ c' ++ ts.flatten

/-- The graph pair has all that a report shows: sentences, comments that are not empty elements, and described nodes. -/
structure Complete (comments : Bool) (p : DiffPrint.Texts) (secs : List (Title × List Entry)) : Prop where
  source : ∃ l, p.source.tokens = some l
  target : ∃ l, p.target.tokens = some l
  comments : comments = true → ¬ HasComment p.meta1 none ∧ ¬ HasComment p.meta2 none
  entries : ∀ x ∈ secs, ∀ e ∈ x.2, Described p.source p.target e

/-- The graph pair has only ASCII labels of source nodes and ASCII relations, which do not end with a line break or tab. -/
def Simple (p : DiffPrint.Texts) (secs : List (Title × List Entry)) : Prop :=
  ∀ x ∈ secs, ∀ e ∈ x.2, Plain p.source e ∧ ∀ r, e.rel1 = some r ∨ e.rel2 = some r → ¬ Broken r.toList

end Verif.Spec.DiffPrint
