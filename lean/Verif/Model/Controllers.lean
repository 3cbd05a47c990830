import Verif.Model.Normalizer
/-!
# Model of the direct use of `TableRowController` and `TableColumnController`

The methods `Table` does not call itself: `len`, reading and exchanging a column.
-/
namespace Verif.Tbl
open Verif

/-- `TableColumnController.__len__`, tablecolumncontroller.py:102-103. -/
def colsLen (s : TState) : Nat := s.cols.length

/-- `TableColumnController.__getitem__`, tablecolumncontroller.py:105-106; integer positions. -/
def colsGet (s : TState) (pos : Int) : Except Exc Tree := columnInfo s pos

/-- `TableColumnController.__setitem__` with `_check_column_type`,
tablecolumncontroller.py:108-117; integer positions.  `copy.deepcopy` copies the tail of the element
as well, `replace` of lxml takes the tail of the old element away with it. -/
def colsSet (pos : Int) (t : Tree) : Py TState Unit := fun s =>
  if t.1.tag ≠ colTag then (s, .error .TypeError)
  else match pyIdx s.cols.length pos with
    | none => (s, .error .IndexError)
    | some n => match s.cols[n]? with
      | none => (s, .error .IndexError)
      | some old =>
        let c := Forest.clone s.fresh (Forest.single t)
        ({ s with kids := s.kids.subst old fun _ _ => c.1, cols := s.cols.set n s.fresh,
                  fresh := c.2 }, .ok ())

end Verif.Tbl
