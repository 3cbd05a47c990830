import Verif.Model.Table
/-! # Model of the access to tables by keys: addresses, index pairs and child positions -/
namespace Verif.Tbl
open Verif Verif.Cells Verif.TU

/-- What `table[key]` is given: an integer, a pair of integers, a string, or something else. -/
inductive Key
  | int (i : Int)
  | tuple (pos : Int × Int)
  | address (a : Str)
  | other

/-- The key as the argument of `get_cell_index` (an integer is neither a tuple nor a string). -/
def Key.ref : Key → Ref
  | .int _ => .other
  | .tuple p => .tuple p
  | .address a => .address a
  | .other => .other

/-- `GenericWrapper.get_child(index)` of a table, base.py:78-81 -/
def getChild (s : TState) (i : Int) : Except Exc Tree :=
  match childAt s.kids i with
  | .error e => .error e
  | .ok (_, t) => .ok t

/-- `GenericWrapper.set_child(index, element)` of a table, base.py:83-86, for an element that is in no tree.
The row and column lists of the controllers are not touched. -/
def setChild (i : Int) (t : Tree) : Py TState Unit := fun s =>
  match childAt s.kids i with
  | .error e => (s, .error e)
  | .ok (n, _) => ({ s with kids := s.kids.setAt n t, fresh := max s.fresh (maxId t + 1) }, .ok ())

/-- `Table.__getitem__`, table.py:47-51 -/
def getItem (s : TState) (key : Key) : Except Exc Tree :=
  match key with
  | .int i => getChild s i
  | k => match getCellIndex k.ref with
    | .error e => .error e
    | .ok pos => getCell s pos

/-- `Table.__setitem__`, table.py:53-57, for a cell (or other element) that is in no tree -/
def setItem (key : Key) (t : Tree) : Py TState Unit := fun s =>
  match key with
  | .int i => setChild i t s
  | k => match getCellIndex k.ref with
    | .error e => (s, .error e)
    | .ok pos => tableSetCell pos t s

/-- What `row`, `column`, `row_info` and `column_info` are given: an integer or a string. -/
inductive Line
  | int (i : Int)
  | address (a : Str)

/-- `if is_string(index): index, column = address_to_index(index)`, table.py:125-126 and 143-144 -/
def Line.row : Line → Except Exc Int
  | .int i => .ok i
  | .address a => match addressToIndex a with
    | .error e => .error e
    | .ok (index, _) => .ok index

/-- `if is_string(index): row, index = address_to_index(index)`, table.py:134-135 and 148-149 -/
def Line.column : Line → Except Exc Int
  | .int i => .ok i
  | .address a => match addressToIndex a with
    | .error e => .error e
    | .ok (_, index) => .ok index

/-- `Table.row(index)`, table.py:124-127 -/
def rowAt (s : TState) (l : Line) : Except Exc (List Tree) :=
  match l.row with
  | .error e => .error e
  | .ok i => row s i

/-- `Table.column(index)`, table.py:133-136 -/
def columnAt (s : TState) (l : Line) : Except Exc (List Tree) :=
  match l.column with
  | .error e => .error e
  | .ok i => column s i

/-- `Table.row_info(index)`, table.py:142-145 -/
def rowInfoAt (s : TState) (l : Line) : Except Exc Tree :=
  match l.row with
  | .error e => .error e
  | .ok i => rowElem s i

/-- `Table.column_info(index)`, table.py:147-150 -/
def columnInfoAt (s : TState) (l : Line) : Except Exc Tree :=
  match l.column with
  | .error e => .error e
  | .ok i => columnInfo s i

/-- `Table.set_cell_span(pos, size)`, table.py:177-178 -/
def setCellSpanAt (pos : Ref) (size : Int × Int) : Py TState Unit := fun s =>
  match getCellIndex pos with
  | .error e => (s, .error e)
  | .ok p => setCellSpan p size s

/-- `Table.remove_cell_span(pos)`, table.py:180-181 -/
def removeCellSpanAt (pos : Ref) : Py TState Unit := fun s =>
  match getCellIndex pos with
  | .error e => (s, .error e)
  | .ok p => removeCellSpan p s

/-- `for row1, row2 in zip(a, b): if row1 != row2: return False` (the elements are compared by identity) -/
def sameLoop : List Nat → List Nat → Bool
  | a :: as, b :: bs => if a ≠ b then false else sameLoop as bs
  | _, _ => true

/-- `TableRowController.is_consistent`, tablerowcontroller.py:91-99 -/
def rowsConsistent (s : TState) : Bool :=
  let xmlrows := (s.kids.sel isRow).map fun t => t.1.id
  if xmlrows.length ≠ s.rows.length then false else sameLoop s.rows xmlrows

/-- `TableColumnController.is_consistent`, tablecolumncontroller.py:121-129 -/
def colsConsistent (s : TState) : Bool :=
  let xmlcols := (s.kids.sel isCol).map fun t => t.1.id
  if xmlcols.length ≠ s.cols.length then false else sameLoop s.cols xmlcols

/-- `TableRow(ncols)`, table.py:194-201: `range(ncols)` is empty for negative counts -/
def newTableRow (id : Nat) (ncols : Int) : Tree := ({ id := id, tag := rowTag }, newCells (id + 1) ncols.toNat)

end Verif.Tbl
