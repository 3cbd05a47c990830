import Verif.Model.Cells
import Verif.Model.Tags
import Verif.Model.TableUtils
/-!
# Model of `tablerowcontroller.py`, `tablecolumncontroller.py`, `cellspancontroller.py`, `table.py`

State of a `Table` object: the table element (`node`), its children (`kids`), the caches `_rows` and
`_columns` (node identities) and the next unused identity.  A cached identity that is no longer
in the tree (only possible after `reset` has raised) is treated as a row without cells.

Simplification: text behind a row or column (its `tail`, white space in OpenDocument files) stays with
that element; with lxml a sibling that is inserted behind it by `addnext` comes to stand before this text.
-/
namespace Verif.Tbl
open Verif Verif.Cells

def rowTag := "table:table-row"
def colTag := "table:table-column"
def isRow (e : Elem) : Bool := e.tag = rowTag
def isCol (e : Elem) : Bool := e.tag = colTag

structure TState where
  node : Elem
  kids : Forest
  rows : List Nat
  cols : List Nat
  fresh : Nat
  deriving DecidableEq, Repr

/-- `new_empty_cell`, tableutils.py:71-72. -/
def newCell (id : Nat) : Tree := ({ id := id, tag := cellTag }, .nil)
/-- `new_empty_column`, tablecolumncontroller.py:18-19. -/
def newColumn (id : Nat) : Tree := ({ id := id, tag := colTag }, .nil)

def newCells (id : Nat) : Nat → Forest
  | 0 => .nil
  | n + 1 => .cons (newCell id).1 .nil (newCells (id + 1) n)

/-- `_build_new_row`, tablerowcontroller.py:80-84; uses the identities `id … id + ncols`. -/
def newRow (id ncols : Nat) : Tree := ({ id := id, tag := rowTag }, newCells (id + 1) ncols)

/-- `for _ in range(n): m` -/
def repeatPy {σ : Type} : Nat → Py σ Unit → Py σ Unit
  | 0, _ => pure ()
  | n + 1, m => do m; repeatPy n m

/-- `for x in xs: m x` -/
def forPy {σ α : Type} (m : α → Py σ Unit) : List α → Py σ Unit
  | [] => pure ()
  | x :: xs => do m x; forPy m xs

/-! ## Row controller -/

/-- The children of a row or column element. -/
def kidsOf (s : TState) (id : Nat) : Forest :=
  match s.kids.find id with
  | some t => t.2
  | none => .nil

/-- `nrows`, tablerowcontroller.py:29-30, table.py:81-83. -/
def nrows (s : TState) : Nat := s.rows.length

/-- `ncols`, tablerowcontroller.py:32-36, table.py:85-87. -/
def ncols (s : TState) : Nat :=
  match s.rows with
  | [] => 0
  | r :: _ => (kidsOf s r).length

/-- `_adjust_negative_indices`, tablerowcontroller.py:46-52. -/
def adjust (s : TState) (pos : Int × Int) : Int × Int :=
  (if pos.1 < 0 then pos.1 + nrows s else pos.1, if pos.2 < 0 then pos.2 + ncols s else pos.2)

/-- `self._rows[i]` -/
def rowId (s : TState) (i : Int) : Except Exc Nat :=
  match pyIdx s.rows.length i with
  | none => .error .IndexError
  | some n => match s.rows[n]? with
    | some r => .ok r
    | none => .error .IndexError

/-- `xmlnode[i]` -/
def childAt (k : Forest) (i : Int) : Except Exc (Nat × Tree) :=
  match pyIdx k.length i with
  | none => .error .IndexError
  | some n => match k.toList[n]? with
    | some t => .ok (n, t)
    | none => .error .IndexError

/-- Row identity, column position and cell of `self._rows[row][col]` after index adjustment. -/
def locate (s : TState) (pos : Int × Int) : Except Exc (Nat × Nat × Tree) :=
  let p := adjust s pos
  match rowId s p.1 with
  | .error e => .error e
  | .ok r => match childAt (kidsOf s r) p.2 with
    | .error e => .error e
    | .ok (n, t) => .ok (r, n, t)

/-- `get_cell`, tablerowcontroller.py:38-40. -/
def getCell (s : TState) (pos : Int × Int) : Except Exc Tree :=
  match locate s pos with
  | .error e => .error e
  | .ok (_, _, t) => .ok t

/-- `row(index)`, tablerowcontroller.py:54-55: the row element. -/
def rowElem (s : TState) (i : Int) : Except Exc Tree :=
  match rowId s i with
  | .error e => .error e
  | .ok r => match s.kids.find r with
    | some t => .ok t
    | none => .error .IndexError

/-- `Table.row(index)`, table.py:124-127: the cells of the row (integer index). -/
def row (s : TState) (i : Int) : Except Exc (List Tree) :=
  match rowId s i with
  | .error e => .error e
  | .ok r => .ok (kidsOf s r).toList

/-- `column(index)`, tablerowcontroller.py:57-58: list comprehension over the rows. -/
def columnLoop (s : TState) (i : Int) : List Nat → Except Exc (List Tree)
  | [] => .ok []
  | r :: rs => match childAt (kidsOf s r) i with
    | .error e => .error e
    | .ok (_, t) => match columnLoop s i rs with
      | .error e => .error e
      | .ok ts => .ok (t :: ts)

/-- `Table.column(index)`, table.py:133-136. -/
def column (s : TState) (i : Int) : Except Exc (List Tree) := columnLoop s i s.rows

/-- `[f(0), ..., f(n-1)]` with exceptions. -/
def collectE {α : Type} (f : Nat → Except Exc α) : List Nat → Except Exc (List α)
  | [] => .ok []
  | i :: is => match f i with
    | .error e => .error e
    | .ok a => match collectE f is with
      | .error e => .error e
      | .ok as => .ok (a :: as)

/-- `Table.rows()`, table.py:129-131 (all values of the generator). -/
def rowsView (s : TState) : Except Exc (List (List Tree)) :=
  collectE (fun i => row s i) (List.range (nrows s))

/-- `Table.columns()`, table.py:138-140. -/
def columnsView (s : TState) : Except Exc (List (List Tree)) :=
  collectE (fun i => column s i) (List.range (ncols s))

/-- `Table.itercells()`, table.py:118-122. -/
def itercells (s : TState) : Except Exc (List ((Nat × Nat) × Tree)) :=
  match rowsView s with
  | .error e => .error e
  | .ok rs => .ok (rs.zipIdx.flatMap fun (r, i) => r.zipIdx.map fun (c, j) => ((i, j), c))

/-- One round of `append_rows`, tablerowcontroller.py:105-108. -/
def appendRow : Py TState Unit := fun s =>
  let w := ncols s
  let new := newRow s.fresh w
  match s.rows.getLast? with
  | none => (s, .error .IndexError)
  | some last => ({ s with
      kids := s.kids.subst last fun e k => .cons e k (Forest.single new)
      rows := s.rows ++ [new.1.id]
      fresh := s.fresh + (w + 1) }, .ok ())

/-- `append_rows`, tablerowcontroller.py:101-108, table.py:152-153. -/
def appendRows (count : Int) : Py TState Unit :=
  if count < 1 then Py.raise .ValueError else repeatPy count.toNat appendRow

/-- `list.insert(i, x)` -/
def pyInsert {α : Type} (l : List α) (i : Int) (x : α) : List α :=
  l.take (pyInsertPos l.length i) ++ x :: l.drop (pyInsertPos l.length i)

/-- One round of `insert_rows`, tablerowcontroller.py:114-117. -/
def insertRow (index : Int) : Py TState Unit := fun s =>
  let w := ncols s
  let new := newRow s.fresh w
  match rowId s index with
  | .error e => (s, .error e)
  | .ok r => ({ s with
      kids := s.kids.subst r fun e k => .cons new.1 new.2 (.cons e k .nil)
      rows := pyInsert s.rows index new.1.id
      fresh := s.fresh + (w + 1) }, .ok ())

/-- `insert_rows`, tablerowcontroller.py:110-117, table.py:155-157. -/
def insertRows (index count : Int) : Py TState Unit :=
  if count < 1 then Py.raise .ValueError else repeatPy count.toNat (insertRow index)

/-- One round of `delete_rows`, tablerowcontroller.py:126-127. -/
def deleteRow (index : Int) : Py TState Unit := fun s =>
  match pyIdx s.rows.length index with
  | none => (s, .error .IndexError)
  | some n => match s.rows[n]? with
    | none => (s, .error .IndexError)
    | some r => ({ s with kids := s.kids.subst r fun _ _ => .nil, rows := s.rows.eraseIdx n }, .ok ())

/-- `delete_rows`, tablerowcontroller.py:119-127, table.py:159-161. -/
def deleteRows (index count : Int) : Py TState Unit := fun s =>
  if count < 1 ∨ count ≥ nrows s then (s, .error .ValueError)
  else repeatPy count.toNat (deleteRow (if index < 0 then index + nrows s else index)) s

/-- `row.append(new_empty_cell())`, tablerowcontroller.py:134. -/
def appendCell (r : Nat) : Py TState Unit := fun s =>
  ({ s with kids := s.kids.mapKids r fun k => k ++ Forest.single (newCell s.fresh),
            fresh := s.fresh + 1 }, .ok ())

/-- `append_columns` of the row controller, tablerowcontroller.py:129-134. -/
def cellsAppendColumns (count : Int) : Py TState Unit := fun s =>
  if count < 1 then (s, .error .ValueError)
  else forPy (fun r => repeatPy count.toNat (appendCell r)) s.rows s

/-- `row.insert(index, new_empty_cell())`, tablerowcontroller.py:144. -/
def insertCell (index : Int) (r : Nat) : Py TState Unit := fun s =>
  ({ s with kids := s.kids.mapKids r fun k => k.insertAt index (newCell s.fresh),
            fresh := s.fresh + 1 }, .ok ())

/-- `insert_columns` of the row controller, tablerowcontroller.py:136-144. -/
def cellsInsertColumns (index count : Int) : Py TState Unit := fun s =>
  if count < 1 then (s, .error .ValueError)
  else
    let index := if index < 0 then index + ncols s else index
    forPy (fun r => repeatPy count.toNat (insertCell index r)) s.rows s

/-- `del row[index]`, tablerowcontroller.py:154. -/
def deleteCell (index : Int) (r : Nat) : Py TState Unit := fun s =>
  match pyIdx (kidsOf s r).length index with
  | none => (s, .error .IndexError)
  | some n => ({ s with kids := s.kids.mapKids r fun k => k.eraseAt n }, .ok ())

/-- `delete_columns` of the row controller, tablerowcontroller.py:146-154. -/
def cellsDeleteColumns (index count : Int) : Py TState Unit := fun s =>
  if count < 1 ∨ count ≥ ncols s then (s, .error .ValueError)
  else
    let index := if index < 0 then index + ncols s else index
    forPy (fun r => repeatPy count.toNat (deleteCell index r)) s.rows s

/-- The new element of `set_cell`: a detached cell, or a cell that is already in this table. -/
inductive CellArg
  | detached (t : Tree)
  | existing (id : Nat)

/-- Largest identity in a tree; the identities of an inserted tree count as used. -/
def maxId (t : Tree) : Nat := (Forest.single t).ids.foldr max 0

/-- `set_cell`, tablerowcontroller.py:42-44.  lxml's `row[col] = element` unlinks `element` from its
old place and puts it in place of the old child. -/
def setCell (pos : Int × Int) (c : CellArg) : Py TState Unit := fun s =>
  match locate s pos with
  | .error e => (s, .error e)
  | .ok (r, n, old) => match c with
    | .detached t => ({ s with kids := s.kids.mapKids r fun k => k.setAt n t,
                               fresh := max s.fresh (maxId t + 1) }, .ok ())
    | .existing id =>
      if id = old.1.id then (s, .ok ())
      else match s.kids.find id with
        | none => (s, .error .IndexError)
        | some t => ({ s with kids :=
            (s.kids.subst id fun _ _ => .nil).subst old.1.id fun _ _ => Forest.single t }, .ok ())

/-- `Table.set_cell`, table.py:112-116.  `kind` is 'Cell' for both cell classes. -/
def tableSetCell (pos : Int × Int) (t : Tree) : Py TState Unit := fun s =>
  if t.1.tag = cellTag ∨ t.1.tag = coveredTag then setCell pos (.detached t) s
  else (s, .error .TypeError)

/-- `get_table_rows`, tableutils.py:65-66, and `update`, tablerowcontroller.py:26-27. -/
def updateRows (s : TState) : TState := { s with rows := (s.kids.sel isRow).map fun t => t.1.id }

/-- `update`, tablecolumncontroller.py:75-76. -/
def updateCols (s : TState) : TState := { s with cols := (s.kids.sel isCol).map fun t => t.1.id }

/-- `_remove_existing_rows` / `_remove_existing_columns`: removal of all children with a tag of the
list, tablerowcontroller.py:86-89, tablecolumncontroller.py:87-90. -/
def removeTags (tags : List String) (k : Forest) : Forest :=
  Forest.ofList (k.toList.filter fun t => t.1.tag ∉ tags)

/-- `n` new rows of `w` cells, tablerowcontroller.py:77. -/
def newRows (id w : Nat) : Nat → Forest
  | 0 => .nil
  | n + 1 => .cons (newRow id w).1 (newRow id w).2 (newRows (id + (w + 1)) w n)

/-- `TableRowController.reset`, tablerowcontroller.py:67-78. -/
def cellsReset (size : Int × Int) : Py TState Unit := fun s =>
  let s1 := { s with kids := removeTags Tags.TABLE_ROWS s.kids }
  if size.1 < 1 then (s1, .error .ValueError)
  else if size.2 < 1 then (s1, .error .ValueError)
  else
    let n := size.1.toNat
    let w := size.2.toNat
    (updateRows { s1 with kids := s1.kids ++ newRows s.fresh w n, fresh := s.fresh + n * (w + 1) },
      .ok ())

/-! ## Column controller -/

/-- One round of `insert` in `reset`, tablecolumncontroller.py:84. -/
def resetColumn (p : Int) : Py TState Unit := fun s =>
  ({ s with kids := s.kids.insertAt p (newColumn s.fresh), fresh := s.fresh + 1 }, .ok ())

/-- `TableColumnController.reset`, tablecolumncontroller.py:78-85. -/
def colsReset (ncols : Int) : Py TState Unit := fun s =>
  if ncols < 1 then (s, .error .ValueError)
  else
    let s1 := { s with kids := removeTags Tags.TABLE_COLUMNS s.kids }
    match Org.insertPositionAfter (fun t : Tree => t.1.tag) Tags.TABLE_PRELUDE s1.kids.toList none with
    | .error e => (s1, .error e)
    | .ok p => match repeatPy ncols.toNat (resetColumn p) s1 with
      | (s2, .ok _) => (updateCols s2, .ok ())
      | (s2, .error e) => (s2, .error e)

/-- `self._columns[i]` -/
def colId (s : TState) (i : Int) : Except Exc Nat :=
  match pyIdx s.cols.length i with
  | none => .error .IndexError
  | some n => match s.cols[n]? with
    | some r => .ok r
    | none => .error .IndexError

/-- `get_table_column` / `Table.column_info(index)`, tablecolumncontroller.py:118-119. -/
def columnInfo (s : TState) (i : Int) : Except Exc Tree :=
  match colId s i with
  | .error e => .error e
  | .ok c => match s.kids.find c with
    | some t => .ok t
    | none => .error .IndexError

/-- One round of `append`, tablecolumncontroller.py:134-137. -/
def appendCol : Py TState Unit := fun s =>
  match s.cols.getLast? with
  | none => (s, .error .IndexError)
  | some last => ({ s with
      kids := s.kids.subst last fun e k => .cons e k (Forest.single (newColumn s.fresh))
      cols := s.cols ++ [s.fresh]
      fresh := s.fresh + 1 }, .ok ())

/-- `append`, tablecolumncontroller.py:131-137. -/
def colsAppend (count : Int) : Py TState Unit :=
  if count < 1 then Py.raise .ValueError else repeatPy count.toNat appendCol

/-- One round of `insert`, tablecolumncontroller.py:144-148. -/
def insertCol (index : Int) : Py TState Unit := fun s =>
  match colId s index with
  | .error e => (s, .error e)
  | .ok c => ({ s with
      kids := s.kids.subst c fun e k => .cons (newColumn s.fresh).1 .nil (.cons e k .nil)
      cols := pyInsert s.cols index s.fresh
      fresh := s.fresh + 1 }, .ok ())

/-- `insert`, tablecolumncontroller.py:139-148. -/
def colsInsert (index count : Int) : Py TState Unit := fun s =>
  if count < 1 then (s, .error .ValueError)
  else repeatPy count.toNat (insertCol (if index < 0 then index + s.cols.length else index)) s

/-- One round of `delete`, tablecolumncontroller.py:156-158. -/
def deleteCol (index : Int) : Py TState Unit := fun s =>
  match pyIdx s.cols.length index with
  | none => (s, .error .IndexError)
  | some n => match s.cols[n]? with
    | none => (s, .error .IndexError)
    | some c => ({ s with kids := s.kids.subst c fun _ _ => .nil, cols := s.cols.eraseIdx n }, .ok ())

/-- `delete`, tablecolumncontroller.py:150-158. -/
def colsDelete (index count : Int) : Py TState Unit := fun s =>
  if count < 1 then (s, .error .ValueError)
  else repeatPy count.toNat (deleteCol (if index < 0 then index + s.cols.length else index)) s

/-! ## Table -/

/-- `append_columns`, table.py:163-165. -/
def appendColumns (count : Int) : Py TState Unit := do
  cellsAppendColumns count
  colsAppend count

/-- `insert_columns`, table.py:167-170. -/
def insertColumns (index count : Int) : Py TState Unit := do
  cellsInsertColumns index count
  colsInsert index count

/-- `delete_columns`, table.py:172-175. -/
def deleteColumns (index count : Int) : Py TState Unit := do
  cellsDeleteColumns index count
  colsDelete index count

/-- `_normalize_sheet_name`, table.py:66-70. -/
def normalizeName (name : Str) : Str :=
  pyStrip (name.map fun c => if c = '\t' ∨ c = '\r' ∨ c = '\'' ∨ c = '"' then ' ' else c)

/-- `name` setter, table.py:62-64 with base.py:120-125.  A name `None` has no `replace`. -/
def setName (name : Option Str) : Py TState Unit := fun s =>
  match name with
  | none => (s, .error .AttributeError)
  | some n =>
    let v := normalizeName n
    if v.isEmpty then (s, .error .ValueError)
    else ({ s with node := s.node.set "table:name" v }, .ok ())

/-- `name`, table.py:59-61. -/
def name (s : TState) : Option Str := s.node.get "table:name"

/-- `GenericWrapper.clear`, base.py:150-152. -/
def clearNode : Py TState Unit := fun s =>
  ({ s with node := { id := s.node.id, tag := s.node.tag }, kids := .nil }, .ok ())

/-- `Table.reset`, table.py:89-95. -/
def reset (size : Int × Int) : Py TState Unit := fun s =>
  (do clearNode
      setName (name s)
      cellsReset size
      colsReset size.2 : Py TState Unit) s

/-- `Table.clear`, table.py:97-99. -/
def clear : Py TState Unit := fun s => reset (nrows s, ncols s) s

/-! ## Cell spans -/

/-- In-place change of the cell element at `pos` (`_get_cell(pos)`, cellspancontroller.py:18-22). -/
def withCell (pos : Int × Int) (m : Py Elem Unit) : Py TState Unit := fun s =>
  match locate s pos with
  | .error e => (s, .error e)
  | .ok (r, n, t) => match m t.1 with
    | (e', res) => ({ s with kids := s.kids.mapKids r fun k => k.setAt n (e', t.2) }, res)

/-- `is_cell_spanning`, cellspancontroller.py:24-25. -/
def isCellSpanning (s : TState) (pos : Int × Int) : Except Exc Bool :=
  match getCell s pos with
  | .error e => .error e
  | .ok t => match span t.1 with
    | .error e => .error e
    | .ok sp => .ok (sp ≠ (1, 1))

/-- `_check_pos_and_size`, cellspancontroller.py:35-44.  `tostr` is not imported in that module:
building the message of the first two exceptions raises NameError. -/
def checkPosAndSize (s : TState) (pos size : Int × Int) : Except Exc Unit :=
  if pos.1 < 0 ∨ pos.2 < 0 then .error .NameError
  else if size.1 < 1 ∨ size.2 < 1 then .error .NameError
  else if pos.1 + size.1 > nrows s ∨ pos.2 + size.2 > ncols s then .error .ValueError
  else .ok ()

/-- Loop of `_has_cell_range_spanned_cells`, cellspancontroller.py:46-50. -/
def hasSpanned (s : TState) : List (Int × Int) → Except Exc Bool
  | [] => .ok false
  | p :: ps => match isCellSpanning s p with
    | .error e => .error e
    | .ok true => .ok true
    | .ok false => hasSpanned s ps

/-- `_cover_cell`, cellspancontroller.py:52-55. -/
def coverCell (pos : Int × Int) : Py TState Unit :=
  withCell pos fun e => (if covered e then e else setCovered true e, .ok ())

/-- `_uncover_cell`, cellspancontroller.py:57-60. -/
def uncoverCell (pos : Int × Int) : Py TState Unit :=
  withCell pos fun e => (if covered e then setCovered false e else e, .ok ())

/-- `set_span`, cellspancontroller.py:27-33, 62-65. -/
def setCellSpan (pos size : Int × Int) : Py TState Unit := fun s =>
  match checkPosAndSize s pos size with
  | .error e => (s, .error e)
  | .ok _ => match TU.iterCellRange pos size with
    | .error e => (s, .error e)
    | .ok range => match hasSpanned s range with
      | .error e => (s, .error e)
      | .ok true => (s, .error .ValueError)
      | .ok false => match TU.iterCellRangeWithoutStartPos pos size with
        | .error e => (s, .error e)
        | .ok others => (do
            forPy coverCell others
            withCell pos (setSpan size)
            uncoverCell pos : Py TState Unit) s

/-- `remove_span`, cellspancontroller.py:67-78. -/
def removeCellSpan (pos : Int × Int) : Py TState Unit := fun s =>
  match isCellSpanning s pos with
  | .error e => (s, .error e)
  | .ok false => (s, .ok ())
  | .ok true => match getCell s pos with
    | .error e => (s, .error e)
    | .ok t => match span t.1 with
      | .error e => (s, .error e)
      | .ok size => match TU.iterCellRange pos size with
        | .error e => (s, .error e)
        | .ok range => (do
            forPy uncoverCell range
            withCell pos delSpanAttributes
            uncoverCell pos : Py TState Unit) s

/-! ## Changes through wrappers of cells, rows and columns -/

/-- What a method of the wrapper `table[pos]` can do to the table: `get_cell`, table.py:108-110, wraps the element
in the tree, and the methods of `Cell` (cells.py) change its attributes, text and children in place.  These become
the given ones; identity, tag and tail stay.  `Model/TableWrite.lean` connects the methods of cells with this. -/
def editCell (pos : Int × Int) (attrs : List (String × Str)) (text : Option Str) (k : Forest) : Py TState Unit := fun s =>
  match locate s pos with
  | .error e => (s, .error e)
  | .ok (r, n, t) => ({ s with kids := s.kids.mapKids r fun f => f.setAt n ({ t.1 with attrs := attrs, text := text }, k),
                               fresh := max s.fresh (k.ids.foldr max 0 + 1) }, .ok ())

/-- What the setters of `table.row_info(index)` do (table.py:142-145, 183-191): the attributes of the row element
become the given ones. -/
def editRow (index : Int) (attrs : List (String × Str)) : Py TState Unit := fun s =>
  match rowId s index with
  | .error e => (s, .error e)
  | .ok r => ({ s with kids := s.kids.subst r fun e k => .cons { e with attrs := attrs } k .nil }, .ok ())

/-- Likewise `table.column_info(index)`, table.py:147-150. -/
def editColumn (index : Int) (attrs : List (String × Str)) : Py TState Unit := fun s =>
  match colId s index with
  | .error e => (s, .error e)
  | .ok c => ({ s with kids := s.kids.subst c fun e k => .cons { e with attrs := attrs } k .nil }, .ok ())

/-! ## Operation histories -/

/-- The mutating calls of the public table API, and changes of cells, rows and columns through their wrappers. -/
inductive Op
  | appendRows (count : Int)
  | insertRows (index count : Int)
  | deleteRows (index count : Int)
  | appendColumns (count : Int)
  | insertColumns (index count : Int)
  | deleteColumns (index count : Int)
  | setCell (pos : Int × Int) (cell : Tree)
  | setSpan (pos size : Int × Int)
  | removeSpan (pos : Int × Int)
  | setName (name : Str)
  | reset (size : Int × Int)
  | clear
  | editCell (pos : Int × Int) (attrs : List (String × Str)) (text : Option Str) (content : Forest)
  | editRow (index : Int) (attrs : List (String × Str))
  | editColumn (index : Int) (attrs : List (String × Str))

def run : Op → Py TState Unit
  | .appendRows n => Tbl.appendRows n
  | .insertRows i n => Tbl.insertRows i n
  | .deleteRows i n => Tbl.deleteRows i n
  | .appendColumns n => Tbl.appendColumns n
  | .insertColumns i n => Tbl.insertColumns i n
  | .deleteColumns i n => Tbl.deleteColumns i n
  | .setCell p t => tableSetCell p t
  | .setSpan p sz => setCellSpan p sz
  | .removeSpan p => removeCellSpan p
  | .setName n => Tbl.setName (some n)
  | .reset sz => Tbl.reset sz
  | .clear => Tbl.clear
  | .editCell p a x k => Tbl.editCell p a x k
  | .editRow i a => Tbl.editRow i a
  | .editColumn i a => Tbl.editColumn i a

/-- `Table(name, size)`, table.py:30-45 (the children and caches are empty before the resets).
The new element gets the identity `id`. -/
def newTable (id : Nat) (name : Str) (size : Int × Int) : TState × Except Exc Unit :=
  (do setName (some name)
      cellsReset size
      colsReset size.2 : Py TState Unit)
    { node := { id := id, tag := "table:table" }, kids := .nil, rows := [], cols := [], fresh := id + 1 }

end Verif.Tbl
