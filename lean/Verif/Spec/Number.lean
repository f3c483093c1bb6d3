/-! Specification of Dutch number words, independent of the model in Model/Number.lean: arithmetic on the number instead of
slicing of its decimal digits. -/
namespace Verif.Spec.Number

/-- 0 (unspoken) to 19. -/
def small : List String :=
  ["", "een", "twee", "drie", "vier", "vijf", "zes", "zeven", "acht", "negen", "tien", "elf", "twaalf", "dertien",
   "veertien", "vijftien", "zestien", "zeventien", "achttien", "negentien"]

/-- 20, 30, …, 90 at positions 2, 3, …, 9. -/
def tens : List String :=
  ["", "", "twintig", "dertig", "veertig", "vijftig", "zestig", "zeventig", "tachtig", "negentig"]

/-- Below 100: the unit comes first, "eenentwintig". -/
def below100 (n : Nat) : String :=
  if n < 20 then small.getD n ""
  else if n % 10 = 0 then tens.getD (n / 10) ""
  else small.getD (n % 10) "" ++ "en" ++ tens.getD (n / 10) ""

/-- Below 1000: "honderd", never "eenhonderd". -/
def below1000 (n : Nat) : String :=
  if n < 100 then below100 n
  else (if n / 100 = 1 then "" else small.getD (n / 100) "") ++ "honderd" ++ below100 (n % 100)

/-- The names of the powers of thousand, with the blanks put around them. -/
def scale : List String :=
  ["", "duizend ", " miljoen ", " miljard ", " biljoen ", " biljard ", " triljoen ", " triljard "]

/-- The words for group number `i` (counted from the right) of three digits with value `b`: "nul" for an empty last group,
"duizend" instead of "eenduizend", else the words for `b` and the name of the power of thousand. -/
def group (i b : Nat) : String :=
  if i = 0 ∧ b = 0 then "nul"
  else if i = 1 ∧ b = 1 then "duizend "
  else below1000 b ++ scale.getD i ""

/-- The words for the `k` lowest groups of `n`, highest first. -/
def groups : Nat → Nat → String
  | 0, _ => ""
  | k + 1, n => group k (n / 1000 ^ k % 1000) ++ groups k n

/-- Numbers of four digits whose second digit is not 0 can be spelled in hundreds: "negentienhonderd". -/
def hasHundreds (n : Nat) : Prop := 1000 ≤ n ∧ n < 10000 ∧ n / 100 % 10 ≠ 0

/-- The number of groups of three digits. -/
def GroupCount (n k : Nat) : Prop := n < 1000 ^ k ∧ (k = 1 ∨ 1 < k ∧ 1000 ^ (k - 1) ≤ n)

end Verif.Spec.Number
