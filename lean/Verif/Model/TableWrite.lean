import Verif.Model.Table
import Verif.Model.Mixins
/-!
# Writing through the cells, rows and columns of a table

`table[pos]`, `table.row_info(index)` and `table.column_info(index)` return wrappers of elements of the tree
(table.py:76-80, 108-110, 142-150); their methods change these elements in place.
-/
namespace Verif.Tbl
open Verif Verif.Forest

/-- A change of the attributes of an element by a property (propertymixins.py), as a change of a tree. -/
def asTree (m : Py Mixins.W Unit) : Py Tree Unit := fun t =>
  let r := m ⟨t.1, t.2.toList, 0⟩
  ((r.1.e, ofList r.1.kids), r.2)

/-- Likewise, as a change of an element. -/
def asElem (m : Py Mixins.W Unit) : Py Elem Unit := fun e =>
  let r := m ⟨e, [], 0⟩
  (r.1.e, r.2)

/-- The calls that change a cell; an assigned or deleted property is one of `Mixins.cell`. -/
inductive CellCall (L : Cells.FloatLib)
  /-- `set_value`, cells.py:81-126 -/
  | setValue (v : Cells.Val L) (ty : Option String) (currency : Option Str)
  /-- `append_text`, cells.py:177-187 -/
  | appendText (text : Str)
  /-- `display_form = text`, cells.py:161-171 -/
  | setDisplayForm (text : Str)
  /-- `cell.property = v`, cells.py:42-45 -/
  | assign (d : Mixins.D) (hd : d ∈ Mixins.cell) (v : Mixins.Val)
  /-- `del cell.property`, cells.py:42-45 -/
  | delete (d : Mixins.D) (hd : d ∈ Mixins.cell)

def CellCall.run {L : Cells.FloatLib} : CellCall L → Py Tree Unit
  | .setValue v ty c => Cells.setValue L v ty c
  | .appendText text => Cells.appendText text
  | .setDisplayForm text => Cells.setDisplayForm text
  | .assign d _ v => asTree (Mixins.write d v)
  | .delete d _ => asTree (Mixins.delete d)

/-- The calls that change a row or column info; the property is one of `Mixins.column`. -/
inductive LineCall
  /-- `line.property = v`, table.py:183-187 -/
  | assign (d : Mixins.D) (hd : d ∈ Mixins.column) (v : Mixins.Val)
  /-- `del line.property` -/
  | delete (d : Mixins.D) (hd : d ∈ Mixins.column)

def LineCall.run : LineCall → Py Elem Unit
  | .assign d _ v => asElem (Mixins.write d v)
  | .delete d _ => asElem (Mixins.delete d)

/-- `table[pos].method(...)`: `get_cell`, table.py:76-80, 108-110, then the method on the element in the tree.
The elements in the cell get new identities (the models of the methods give all new elements the identity 0);
references to them are not part of the model. -/
def onCell (pos : Int × Int) (m : Py Tree Unit) : Py TState Unit := fun s =>
  match getCell s pos with
  | .error e => (s, .error e)
  | .ok t =>
    let r := m t
    ((editCell pos r.1.1.attrs r.1.1.text (r.1.2.clone s.fresh).1 s).1, r.2)

/-- `table.row_info(index).property = ...`, table.py:142-145. -/
def onRow (index : Int) (m : Py Elem Unit) : Py TState Unit := fun s =>
  match rowElem s index with
  | .error e => (s, .error e)
  | .ok t =>
    let r := m t.1
    ((editRow index r.1.attrs s).1, r.2)

/-- `table.column_info(index).property = ...`, table.py:147-150. -/
def onColumn (index : Int) (m : Py Elem Unit) : Py TState Unit := fun s =>
  match columnInfo s index with
  | .error e => (s, .error e)
  | .ok t =>
    let r := m t.1
    ((editColumn index r.1.attrs s).1, r.2)

/-- `table[pos] = table[source]`, table.py:108-116: the wrapper that `get_cell` returns refers to the element in the
tree, so `set_cell` gets an element that is already in the table.  Only the wrappers of `table:table-cell` and
`table:covered-table-cell` have the kind 'Cell'. -/
def assignCell (pos source : Int × Int) : Py TState Unit := fun s =>
  match getCell s source with
  | .error e => (s, .error e)
  | .ok t => if t.1.tag = Cells.cellTag ∨ t.1.tag = Cells.coveredTag then setCell pos (.existing t.1.id) s
    else (s, .error .TypeError)

end Verif.Tbl
