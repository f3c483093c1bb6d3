import Verif.PyNum
import Mathlib.Data.Finset.Card
import Mathlib.Data.Finset.Dedup
import Mathlib.Data.Finset.Lattice.Basic

/-! Model of lib/daeso/string/similar.py.  A Python `set` is a `Finset`; floats are exact. -/
namespace Verif.Similar
open Verif

variable {α : Type} [DecidableEq α]

/-- `set(seq1).intersection(seq2)`, used throughout similar.py. -/
def inter (seq1 seq2 : List α) : Finset α := seq1.toFinset ∩ seq2.toFinset

/-- similar.py:35-42 `type_match`. -/
def typeMatch (seq1 seq2 : List α) : Nat := (inter seq1 seq2).card

/-- similar.py:45-53 `token_match`. -/
def tokenMatch (seq1 seq2 : List α) : Nat := (seq1.filter (fun e => decide (e ∈ seq2))).length

/-- similar.py:56-67 `sym_token_match`. -/
def symTokenMatch (seq1 seq2 : List α) : ℚ :=
  ((tokenMatch seq1 seq2 + tokenMatch seq2 seq1 : Nat) : ℚ) / 2

/-- similar.py:70-85 `cosine`. -/
noncomputable def cosine (seq1 seq2 : List α) : Py ℝ :=
  Py.catchZeroDiv 0 (Py.divR (inter seq1 seq2).card
    (Real.sqrt ((seq1.length * seq2.length : Nat) : ℝ)))

/-- similar.py:88-103 `tanimoto`. -/
def tanimoto (seq1 seq2 : List α) : Py ℚ :=
  Py.catchZeroDiv 0 (Py.div (inter seq1 seq2).card
    ((seq1.length : ℚ) + seq2.length - (inter seq1 seq2).card))

/-- similar.py:106-121 `dice`. -/
def dice (seq1 seq2 : List α) : Py ℚ :=
  Py.catchZeroDiv 0 (Py.div (2 * (inter seq1 seq2).card) ((seq1.length : ℚ) + seq2.length))

/-- similar.py:124-140 `jaccard`. -/
def jaccard (seq1 seq2 : List α) : Py ℚ :=
  Py.catchZeroDiv 0 (Py.div (inter seq1 seq2).card
    (((seq1.toFinset ∪ seq2.toFinset).card : Nat) : ℚ))

/-- similar.py:143-155 `overlap_min`. -/
def overlapMin (seq1 seq2 : List α) : Py ℚ :=
  Py.catchZeroDiv 0 (Py.div (inter seq1 seq2).card ((min seq1.length seq2.length : Nat) : ℚ))

/-- similar.py:158-170 `overlap_max`. -/
def overlapMax (seq1 seq2 : List α) : Py ℚ :=
  Py.catchZeroDiv 0 (Py.div (inter seq1 seq2).card ((max seq1.length seq2.length : Nat) : ℚ))

/-- The loops of similar.py:191-193, 213-215: `intersection.intersection_update(seq)` while a number is
accumulated with `op`. -/
def accumulate (op : Nat → Nat → Nat) (s : List α) (rest : List (List α)) : Nat × Finset α :=
  rest.foldl (fun acc seq => (op acc.1 seq.length, acc.2 ∩ seq.toFinset)) (s.length, s.toFinset)

/-- similar.py:180-199 `generalized_cosine`. -/
noncomputable def genCosine : List (List α) → Py ℝ
  | [] => .ok 0
  | s :: rest =>
    let r := accumulate (· * ·) s rest
    Py.catchZeroDiv 0 (Py.divR (r.2.card : ℝ) (Real.sqrt (r.1 : ℝ)))

/-- similar.py:202-222 `generalized_dice`. -/
def genDice : List (List α) → Py ℚ
  | [] => .ok 0
  | s :: rest =>
    let r := accumulate (· + ·) s rest
    Py.catchZeroDiv 0 (Py.div (((s :: rest).length * r.2.card : Nat) : ℚ) (r.1 : ℚ))

/-- similar.py:224-243 `generalized_jaccard`. -/
def genJaccard : List (List α) → Py ℚ
  | [] => .ok 0
  | s :: rest =>
    let r := rest.foldl (fun (acc : Finset α × Finset α) seq =>
      (acc.1 ∪ seq.toFinset, acc.2 ∩ seq.toFinset)) (s.toFinset, s.toFinset)
    Py.catchZeroDiv 0 (Py.div (r.2.card : ℚ) (r.1.card : ℚ))

end Verif.Similar
