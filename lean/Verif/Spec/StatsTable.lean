import Verif.Model.StatsTable
import Mathlib.Algebra.Order.Ring.Abs

/-! Which tables can be read back, and what is read (C65). -/
namespace Verif.Spec.StatsTable
open Verif Verif.StatsTable Verif.Etree

/-- The words in two columns that stand side by side are separated: the first has text, or the second has numbers of at
most seven characters. -/
def Apart (c d : Column) : Prop := match c.cells, d.cells with
  | .string _, _ => True
  | _, .string l => l = []
  | _, .count l => ∀ n ∈ l, -999999 ≤ n ∧ n ≤ 9999999
  | _, .other l => ∀ q ∈ l, -999995/1000 < q ∧ q < 9999995/1000

/-- A table that can be read back. -/
structure Readable (ws : Char → Bool) (t : Table) : Prop where
  /-- It has columns, and not just one of single characters. -/
  columns : t ≠ []
  wide : ¬ ∃ c l, t = [c] ∧ c.cells = .string l ∧ c.label.length ≤ 1 ∧ ∀ s ∈ l, s.length ≤ 1
  /-- All columns are equally long. -/
  rows : ∃ n, ∀ c ∈ t, c.cells.len = n
  /-- Labels are words, and values are words that are not empty. -/
  labels : ∀ c ∈ t, ∀ x ∈ c.label, ws x = false
  words : ∀ c ∈ t, ∀ l, c.cells = .string l → ∀ s ∈ l, s ≠ [] ∧ ∀ x ∈ s, ws x = false
  /-- Nothing in the first column begins like a separator. -/
  first : ∀ c, t.head? = some c →
    ¬ "----".toList <+: c.label ∧ ∀ l, c.cells = .string l → ∀ s ∈ l, ¬ "----".toList <+: s
  apart : t.IsChain Apart

/-- The nearest multiple of 1/100, the even one of two. -/
def Rounded (q q' : ℚ) : Prop :=
  ∃ k : ℤ, q' = k / 100 ∧ |q - q'| ≤ 1/200 ∧ (|q - q'| = 1/200 → Even k)

/-- Values added to a column. -/
def Added : Cells → Cells → Cells → Prop
  | .string a, .string b, .string c => c = a ++ b
  | .count a, .count b, .count c => c = a ++ b
  | .other a, .other b, .other c => ∃ b', c = a ++ b' ∧ List.Forall₂ Rounded b b'
  | _, _, _ => False

/-- Columns of the same type. -/
def SameType (c d : Column) : Prop := match c.cells, d.cells with
  | .string _, .string _ => True
  | .count _, .count _ => True
  | .other _, .other _ => True
  | _, _ => False

/-- The values of the second table added to the first give the third. -/
def Joined : Table → Table → Table → Prop
  | [], [], [] => True
  | a :: as, b :: bs, c :: cs =>
    (c.label = a.label ∧ c.descr = a.descr ∧ c.overall = a.overall ∧ Added a.cells b.cells c.cells) ∧ Joined as bs cs
  | _, _, _ => False

/-- What is assumed of white space. -/
structure Blanks (ws : Char → Bool) : Prop where
  space : ws ' ' = true
  newline : ws '\n' = true
  dash : ws '-' = false
  point : ws '.' = false
  digit : ∀ c : Char, c.isDigit = true → ws c = false

/-- The words of each line that is not blank (`l.split()`). -/
def defined (ws : Char → Bool) (ls : List Text) : List (List Text) := (ls.map (DaesoGraph.splitWs ws)).filter (· ≠ [])

/-- Every text where it first occurs. -/
def firsts : List Text → List Text
  | [] => []
  | x :: xs => x :: (firsts xs).filter (· ≠ x)

/-- The `n` values of a new column: counts, texts or numbers. -/
def NewCells (type : Text) (n : Nat) (x : Cells) : Prop :=
  if type = "count".toList then x = .count (List.replicate n 0)
  else if type = "string".toList then x = .string (List.replicate n [])
  else x = .other (List.replicate n 0)

/-- The columns of a new table: in the order in which their labels are first defined, each with the type and the
description of the last line that defines it. -/
def Defines (n : Nat) (rows : List (List Text)) (t : Table) : Prop :=
  t.map Column.label = firsts (rows.map fun r => r.headD []) ∧
  ∀ c ∈ t, ∃ before type words after, rows = before ++ (c.label :: type :: words) :: after ∧
    (∀ r ∈ after, r.headD [] ≠ c.label) ∧ c.descr = DaesoGraph.join words ∧ NewCells type n c.cells ∧ c.overall = none

end Verif.Spec.StatsTable
