import Verif.Model.Xml
/-! # Specification vocabulary for tables -/
namespace Verif.TSpec
open Verif

/-- All elements of a forest in document order, each with its children. -/
def nodes : Forest → List Tree
  | .nil => []
  | .cons e k r => (e, k) :: (nodes k ++ nodes r)

/-- The row elements of a table in document order. -/
def docRows (F : Forest) : List Tree := (nodes F).filter fun t => t.1.tag = "table:table-row"

/-- The column elements of a table in document order. -/
def docCols (F : Forest) : List Tree := (nodes F).filter fun t => t.1.tag = "table:table-column"

/-- The tree without row and column elements (and what is inside them). -/
def others : Forest → Forest
  | .nil => .nil
  | .cons e k r =>
    if e.tag = "table:table-row" ∨ e.tag = "table:table-column" then others r
    else .cons e (others k) (others r)

/-- The cells of a row element. -/
def cells (t : Tree) : List Tree := t.2.toList

/-- The cell in row `i` and column `j` of the tree. -/
def docCell (F : Forest) (i j : Nat) : Option Tree := (docRows F)[i]?.bind fun t => (cells t)[j]?

/-- An empty cell: no attributes, no text, no content. -/
def EmptyCell (t : Tree) : Prop :=
  t.1.tag = "table:table-cell" ∧ t.1.attrs = [] ∧ t.1.text = none ∧ t.1.tail = none ∧ t.2 = .nil

/-- A row of `w` empty cells without attributes. -/
def EmptyRow (w : Nat) (t : Tree) : Prop :=
  t.1.tag = "table:table-row" ∧ t.1.attrs = [] ∧ t.1.text = none ∧ t.1.tail = none ∧
  (cells t).length = w ∧ ∀ c ∈ cells t, EmptyCell c

/-- A column info without attributes. -/
def EmptyColumn (t : Tree) : Prop :=
  t.1.tag = "table:table-column" ∧ t.1.attrs = [] ∧ t.1.text = none ∧ t.1.tail = none ∧ t.2 = .nil

/-- Index `i` (negative: from the end) denotes position `p` in a list of `n` elements. -/
def Denotes (n : Nat) (i : Int) (p : Nat) : Prop := p < n ∧ (i = p ∨ i = (p : Int) - n)

/-- The same trees up to the identity of elements. -/
inductive SameContent : Forest → Forest → Prop
  | nil : SameContent .nil .nil
  | cons {e e' k k' r r'} (he : e'.tag = e.tag ∧ e'.attrs = e.attrs ∧ e'.text = e.text ∧ e'.tail = e.tail)
      (hk : SameContent k k') (hr : SameContent r r') : SameContent (.cons e k r) (.cons e' k' r')

end Verif.TSpec
