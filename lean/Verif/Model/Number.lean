import Verif.PyDict

/-! Model of lib/daeso/string/number.py:33-154. Strings are lists of characters; `str(n)` is
`Nat.toDigits 10 n`, so only non-negative integers are covered ("a positive integer number", line 35). -/
namespace Verif.Number
open Verif

/-- number.py:79-108 `_triple_to_word`. -/
def tripleToWord : AD (List Char) (List Char) :=
  [(['0', '0', '0'], []),
   (['0', '0', '1'], ['e', 'e', 'n']),
   (['0', '0', '2'], ['t', 'w', 'e', 'e']),
   (['0', '0', '3'], ['d', 'r', 'i', 'e']),
   (['0', '0', '4'], ['v', 'i', 'e', 'r']),
   (['0', '0', '5'], ['v', 'i', 'j', 'f']),
   (['0', '0', '6'], ['z', 'e', 's']),
   (['0', '0', '7'], ['z', 'e', 'v', 'e', 'n']),
   (['0', '0', '8'], ['a', 'c', 'h', 't']),
   (['0', '0', '9'], ['n', 'e', 'g', 'e', 'n']),
   (['0', '1', '0'], ['t', 'i', 'e', 'n']),
   (['0', '1', '1'], ['e', 'l', 'f']),
   (['0', '1', '2'], ['t', 'w', 'a', 'a', 'l', 'f']),
   (['0', '1', '3'], ['d', 'e', 'r', 't', 'i', 'e', 'n']),
   (['0', '1', '4'], ['v', 'e', 'e', 'r', 't', 'i', 'e', 'n']),
   (['0', '1', '5'], ['v', 'i', 'j', 'f', 't', 'i', 'e', 'n']),
   (['0', '1', '6'], ['z', 'e', 's', 't', 'i', 'e', 'n']),
   (['0', '1', '7'], ['z', 'e', 'v', 'e', 'n', 't', 'i', 'e', 'n']),
   (['0', '1', '8'], ['a', 'c', 'h', 't', 't', 'i', 'e', 'n']),
   (['0', '1', '9'], ['n', 'e', 'g', 'e', 'n', 't', 'i', 'e', 'n']),
   (['0', '2', '0'], ['t', 'w', 'i', 'n', 't', 'i', 'g']),
   (['0', '3', '0'], ['d', 'e', 'r', 't', 'i', 'g']),
   (['0', '4', '0'], ['v', 'e', 'e', 'r', 't', 'i', 'g']),
   (['0', '5', '0'], ['v', 'i', 'j', 'f', 't', 'i', 'g']),
   (['0', '6', '0'], ['z', 'e', 's', 't', 'i', 'g']),
   (['0', '7', '0'], ['z', 'e', 'v', 'e', 'n', 't', 'i', 'g']),
   (['0', '8', '0'], ['t', 'a', 'c', 'h', 't', 'i', 'g']),
   (['0', '9', '0'], ['n', 'e', 'g', 'e', 'n', 't', 'i', 'g'])]

/-- number.py:113-122 `_triple_modifiers`. -/
def modifiers : List (List Char) :=
  [[],
   ['d', 'u', 'i', 'z', 'e', 'n', 'd', ' '],
   [' ', 'm', 'i', 'l', 'j', 'o', 'e', 'n', ' '],
   [' ', 'm', 'i', 'l', 'j', 'a', 'r', 'd', ' '],
   [' ', 'b', 'i', 'l', 'j', 'o', 'e', 'n', ' '],
   [' ', 'b', 'i', 'l', 'j', 'a', 'r', 'd', ' '],
   [' ', 't', 'r', 'i', 'l', 'j', 'o', 'e', 'n', ' '],
   [' ', 't', 'r', 'i', 'l', 'j', 'a', 'r', 'd', ' ']]

/-- number.py:137-139: words for the first digit. -/
def hundredsWord (d1 : Char) : Py (List Char) :=
  if d1 ∉ ['0', '1'] then tripleToWord.get ['0', '0', d1] else .ok []

/-- number.py:146-148: words for the last digit. -/
def unitsWord (d3 : Char) : Py (List Char) :=
  if d3 ≠ '0' then do
    let w ← tripleToWord.get ['0', '0', d3]
    .ok (w ++ ['e', 'n'])
  else .ok []

/-- number.py:150-152: words for the middle digit. -/
def tensWord (d2 : Char) : Py (List Char) :=
  if d2 ≠ '0' then tripleToWord.get ['0', d2, '0'] else .ok []

/-- number.py:125-154 `_digit_triple_to_words`. The recursive call has "0" as first digit and then makes
no further call, so a recursion depth of 2 (first argument) is never exceeded. -/
def tripleWords : Nat → List Char → Py (List Char)
  | depth, digits =>
    match tripleToWord.get? digits with
    | some w => .ok w
    | none =>
      match digits with
      | [d1, d2, d3] => do
        let words ← hundredsWord d1
        if d1 ≠ '0' then
          match depth with
          | 0 => .error .fuel
          | depth + 1 => do
            let r ← tripleWords depth ['0', d2, d3]
            .ok (words ++ ['h', 'o', 'n', 'd', 'e', 'r', 'd'] ++ r)
        else do
          let u ← unitsWord d3
          let t ← tensWord d2
          .ok (words ++ u ++ t)
      | _ => .error .valueError

/-- `s[-3:].rjust(3, "0")` (number.py:51). -/
def lastTriple (s : List Char) : List Char :=
  let r := s.drop (s.length - 3)
  List.replicate (3 - r.length) '0' ++ r

/-- State of the loop: `s`, `i`, `words`. -/
structure St where
  s : List Char
  i : Nat
  words : List Char

/-- number.py:50-67: loop body. -/
def body (st : St) : Py St := do
  let triple := lastTriple st.s
  let words ←
    if st.i = 0 ∧ triple = ['0', '0', '0'] then .ok ['n', 'u', 'l']
    else if st.i = 1 ∧ triple = ['0', '0', '1'] then do
      let m ← Py.get modifiers st.i
      .ok (m ++ st.words)
    else do
      let w ← tripleWords 1 triple
      let m ← Py.get modifiers st.i
      .ok (w ++ m ++ st.words)
  .ok { s := st.s.take (st.s.length - 3), i := st.i + 1, words := words }

/-- `words.strip()` for words whose only white space is the blank. -/
def strip (w : List Char) : List Char :=
  ((w.dropWhile (· == ' ')).reverse.dropWhile (· == ' ')).reverse

/-- number.py:33-71 `spell_out_number`; `fuel` bounds the loop. -/
def spell (fuel : Nat) (preferHundreds : Bool) (n : Nat) : Py (List Char) :=
  let s := Nat.toDigits 10 n
  if s.length = 4 ∧ s[1]? ≠ some '0' ∧ preferHundreds then do
    let a ← tripleWords 1 ('0' :: s.take 2)
    let b ← tripleWords 1 ('0' :: s.drop 2)
    .ok (a ++ ['h', 'o', 'n', 'd', 'e', 'r', 'd'] ++ b)
  else do
    let st ← Py.whileLoop (fun st => .ok (!st.s.isEmpty)) body fuel { s := s, i := 0, words := [] }
    .ok (strip st.words)

end Verif.Number
