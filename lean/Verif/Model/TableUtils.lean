import Verif.Model.Py
/-!
# Model of `ezodf/tableutils.py` (addresses and ranges)
-/
namespace Verif.TU
open Verif

/-- Python's `range(a, b)` on integers. -/
def pyRange (a b : Int) : List Int := (List.range (b - a).toNat).map fun i => a + (i : Nat)

/-- `iter_cell_range`, tableutils.py:14-24.  A generator; the model is the list of yielded
values.  (The exceptions of the Python generator are raised at the first `next`.) -/
def iterCellRange (pos size : Int × Int) : Except Exc (List (Int × Int)) :=
  if pos.1 < 0 ∨ pos.2 < 0 then .error .ValueError
  else if size.1 < 1 ∨ size.2 < 1 then .error .ValueError
  else .ok ((pyRange pos.1 (pos.1 + size.1)).flatMap fun row =>
    (pyRange pos.2 (pos.2 + size.2)).map fun column => (row, column))

/-- `iter_cell_range_without_start_pos`, tableutils.py:26-29: `next(generator)` consumes the first
value (the range is never empty when no exception is raised). -/
def iterCellRangeWithoutStartPos (pos size : Int × Int) : Except Exc (List (Int × Int)) :=
  match iterCellRange pos size with
  | .ok l => .ok l.tail
  | .error e => .error e

/-- `str.upper` on ASCII characters.  Simplification: non-ASCII characters are left alone (Python
maps some of them to ASCII letters, e.g. `'ß'` to `'SS'`); the theorems are about ASCII strings. -/
def upperChar (c : Char) : Char :=
  if 97 ≤ c.toNat ∧ c.toNat ≤ 122 then Char.ofNat (c.toNat - 32) else c

def upper (s : Str) : Str := s.map upperChar

/-- `[A-Z]` -/
def isAZ (c : Char) : Bool := 65 ≤ c.toNat && c.toNat ≤ 90

/-- `CELL_ADDRESS.match(s)` with `CELL_ADDRESS = re.compile('^([A-Z]+)(\d+)$')`,
tableutils.py:31: greedy groups over disjoint classes; `$` also matches before a final newline. -/
def matchAddress (s : Str) : Option (Str × Str) :=
  let letters := s.takeWhile isAZ
  let rest := s.dropWhile isAZ
  let digits := rest.takeWhile isDigit
  let rest2 := rest.dropWhile isDigit
  if letters ≠ [] ∧ digits ≠ [] ∧ (rest2 = [] ∨ rest2 = ['\n']) then some (letters, digits) else none

/-- Loop of `column_name_to_index`, tableutils.py:34-41, over `reversed(colname)`. -/
def columnLoop (index power : Int) : Str → Int
  | [] => index
  | c :: cs => columnLoop (index + ((c.toNat : Int) - 64) * power) (power * 26) cs

/-- `column_name_to_index`, tableutils.py:34-41 (`base = ord('A') - 1 = 64`). -/
def columnNameToIndex (colname : Str) : Int := columnLoop 0 1 colname.reverse - 1

/-- `address_to_index`, tableutils.py:33-48. -/
def addressToIndex (address : Str) : Except Exc (Int × Int) :=
  match matchAddress (upper address) with
  | some (columnName, rowName) =>
    match pyInt rowName with
    | some n => .ok (n - 1, columnNameToIndex columnName)
    | none => .error .ValueError
  | none => .error .ValueError

/-- The argument kinds of `get_cell_index`. -/
inductive Ref
  | tuple (pos : Int × Int)
  | address (s : Str)
  | other

/-- `get_cell_index`, tableutils.py:50-56.  For other types the code means to raise TypeError but
the message refers to the undefined name `key`, so NameError is raised. -/
def getCellIndex : Ref → Except Exc (Int × Int)
  | .tuple p => .ok p
  | .address s => addressToIndex s
  | .other => .error .NameError

end Verif.TU
