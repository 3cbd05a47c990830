import Verif.Model.Py
/-!
# Specification: spreadsheet addresses

Column names are the bijective base-26 numerals A, B, ..., Z, AA, AB, ...; row numbers start
with 1.  Independent of the parser in `tableutils.py`.
-/
namespace Verif.Address
open Verif

def letter (n : Nat) : Char := Char.ofNat (65 + n)

def colNameF : Nat → Nat → Str
  | 0, _ => []
  | f + 1, n => if n < 26 then [letter n] else colNameF f (n / 26 - 1) ++ [letter (n % 26)]

/-- Name of the column with zero-based index `n`. -/
def colName (n : Nat) : Str := colNameF (n + 1) n

/-- Canonical address of the cell in row `r`, column `c` (zero-based). -/
def address (r c : Nat) : Str := colName c ++ natStr (r + 1)

/-- Canonical addresses: upper-case letters, then a number without leading zero. -/
def Canonical (s : Str) : Prop :=
  ∃ L D : Str, s = L ++ D ∧ L ≠ [] ∧ (∀ c ∈ L, 'A' ≤ c ∧ c ≤ 'Z') ∧ D ≠ [] ∧
    (∀ c ∈ D, '0' ≤ c ∧ c ≤ '9') ∧ D.head? ≠ some '0'

/-- Addresses in any letter case, with any row number: letters followed by digits. -/
def WellFormed (s : Str) : Prop :=
  ∃ L D : Str, s = L ++ D ∧ L ≠ [] ∧ (∀ c ∈ L, ('A' ≤ c ∧ c ≤ 'Z') ∨ ('a' ≤ c ∧ c ≤ 'z')) ∧
    D ≠ [] ∧ (∀ c ∈ D, '0' ≤ c ∧ c ≤ '9')

def Ascii (s : Str) : Prop := ∀ c ∈ s, c.toNat < 128

end Verif.Address
