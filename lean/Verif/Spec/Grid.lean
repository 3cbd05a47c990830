import Verif.Model.XmlTree
import Verif.Model.Py
import Verif.Spec.Table
/-! # Specification vocabulary for stored tables with repeated rows and cells -/
namespace Verif.TSpec
open Verif

/-- `n` copies of `x` for each entry `(n, x)`. -/
def rle {α : Type} (l : List (Nat × α)) : List α := l.flatMap fun p => List.replicate p.1 p.2

/-- The entry whose copies cover position `i`. -/
def coverAt {α : Type} : List (Nat × α) → Nat → Option α
  | [], _ => none
  | (n, x) :: r, i => if i < n then some x else coverAt r (i - n)

/-- An element stores the repetition count `n` (no attribute: 1). -/
def Stored (key : String) (e : Elem) (n : Nat) : Prop :=
  1 ≤ n ∧ ((e.get key = none ∧ n = 1) ∨ ∃ s, e.get key = some s ∧ pyInt s = some (n : Int))

/-- An element without its identity and the repetition count. -/
def bare (key : String) (e : Elem) : Elem :=
  { e with id := 0, attrs := e.attrs.filter fun p => p.1 ≠ key }

/-- A node as shown: everything but identities and its repetition count. -/
def shown (key : String) (t : Tree) : Tree := (bare key t.1, t.2.erase)

/-- A row as shown: the row element and its cells. -/
def rowShown (t : Tree) : Elem × List Tree :=
  (bare "table:number-rows-repeated" t.1,
    (cells t).map (shown "table:number-columns-repeated"))

/-- An empty cell as shown. -/
def emptyShown : Tree := ({ id := 0, tag := "table:table-cell" }, .nil)

/-- The width of the widest row. -/
def width {α β : Type} (rows : List (α × List β)) : Nat :=
  rows.foldr (fun r w => max r.2.length w) 0

/-- Rows filled up with empty cells to the width of the widest row. -/
def padded {α : Type} (rows : List (α × List Tree)) : List (α × List Tree) :=
  rows.map fun r => (r.1, r.2 ++ List.replicate (width rows - r.2.length) emptyShown)

/-- Counts of `max` and more count as one. -/
def lessMax {α : Type} (max : Int) (l : List (Nat × α)) : List (Nat × α) :=
  l.map fun p => (if (p.1 : Int) < max then p.1 else 1, p.2)

/-- The last entry counts as one. -/
def lastOnce {α : Type} (l : List (Nat × α)) : List (Nat × α) :=
  l.dropLast ++ (l.getLast?.map fun p => (1, p.2)).toList

end Verif.TSpec
