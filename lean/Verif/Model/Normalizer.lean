import Verif.Model.Table
/-!
# Model of `tablenormalizer.py`, column expansion of `tablecolumncontroller.py`, `conf.py` and the
opening of a table (`Table(xmlnode=…)`)

The functions work on the table element and its children (`node`, `kids`, `fresh` of `TState`);
`_rows` and `_columns` are filled at the end by `update`.  When one of them raises, the constructor
raises and there is no table object; the tree is then as the state says, except that a row whose
cells could not be read is left as it was (in the code the cells before the unreadable one are
already expanded).
-/
namespace Verif.Tbl
open Verif Verif.Cells

def rowRep := "table:number-rows-repeated"
def colRep := "table:number-columns-repeated"

/-- `RepetitionAttribute.cols` / `.rows`, tableutils.py:81-92. -/
def repeatCount (key : String) (e : Elem) : Except Exc Int :=
  match e.get key with
  | none => .ok 1
  | some s => match pyInt s with
    | some n => .ok n
    | none => .error .ValueError

/-- `del repeat.cols` / `del repeat.rows`, tableutils.py:94-100. -/
def delCount (key : String) (e : Elem) : Except Exc Elem :=
  match e.get key with
  | none => .error .KeyError
  | some _ => .ok (e.del key)

/-- Loop of `expand_element`, tablenormalizer.py:26-30, tablecolumncontroller.py:22-26: every round
puts a deep copy (which takes the next identities) directly behind the node, in front of the
copies `acc` made before. -/
def cloneLoop (t : Tree) : Nat → Nat → Forest → Forest × Nat
  | 0, n, acc => (acc, n)
  | m + 1, n, acc =>
    let c := Forest.clone n (Forest.single t)
    cloneLoop t m c.2 (c.1 ++ acc)

/-- The node and its copies, `while count > 1`. -/
def expandElement (t : Tree) (count : Int) (n : Nat) : Forest × Nat :=
  let r := cloneLoop t (count - 1).toNat n .nil
  (.cons t.1 t.2 r.1, r.2)

/-- What an expansion makes of a node, with the next unused identity. -/
abbrev Expander := Nat → Tree → Except Exc (Forest × Nat)

/-- `_ExpandAll.expand_cell`, `expand_row`, tablenormalizer.py:32-48, `_ExpandAll.expand_column`,
tablecolumncontroller.py:28-33. -/
def expandAll (key : String) : Expander := fun n t =>
  match repeatCount key t.1 with
  | .error e => .error e
  | .ok count =>
    if count > 1 then
      match delCount key t.1 with
      | .error e => .error e
      | .ok e => .ok (expandElement (e, t.2) count n)
    else .ok (Forest.single t, n)

/-- `_ExpandAllButLast.expand_last_cell`, `expand_last_row`, tablenormalizer.py:59-67,
`do_not_expand_column`, tablecolumncontroller.py:40-43. -/
def expandLast (key : String) : Expander := fun n t =>
  match repeatCount key t.1 with
  | .error e => .error e
  | .ok count =>
    if count > 1 then
      match delCount key t.1 with
      | .error e => .error e
      | .ok e => .ok (Forest.single (e, t.2), n)
    else .ok (Forest.single t, n)

/-- `_ExpandAllLessMaxCount.expand_cell`, `expand_row`, tablenormalizer.py:91-107,
`expand_column`, tablecolumncontroller.py:52-59. -/
def expandLess (key : String) (max : Int) : Expander := fun n t =>
  match repeatCount key t.1 with
  | .error e => .error e
  | .ok count =>
    if 1 < count ∧ count < max then
      match delCount key t.1 with
      | .error e => .error e
      | .ok e => .ok (expandElement (e, t.2) count n)
    else if count ≥ max then
      match delCount key t.1 with
      | .error e => .error e
      | .ok e => .ok (Forest.single (e, t.2), n)
    else .ok (Forest.single t, n)

/-- `for xmlcell in xmlrow: expand(xmlcell)`, tablenormalizer.py:39-41.  lxml fetches the next
sibling before the loop body runs, so the copies are not visited. -/
def expandKids (f : Expander) : Nat → Forest → Except Exc (Forest × Nat)
  | n, .nil => .ok (.nil, n)
  | n, .cons e k r => match f n (e, k) with
    | .error x => .error x
    | .ok (F, n1) => match expandKids f n1 r with
      | .error x => .error x
      | .ok (G, n2) => .ok (F ++ G, n2)

/-- `for xmlcell in xmlrow[:-1]: f(xmlcell)` and then `g(xmlrow[-1])`, tablenormalizer.py:69-73. -/
def expandKidsLast (f g : Expander) : Nat → Forest → Except Exc (Forest × Nat)
  | n, .nil => .ok (.nil, n)
  | n, .cons e k .nil => g n (e, k)
  | n, .cons e k r => match f n (e, k) with
    | .error x => .error x
    | .ok (F, n1) => match expandKidsLast f g n1 r with
      | .error x => .error x
      | .ok (G, n2) => .ok (F ++ G, n2)

inductive Strategy
  | all | allButLast | lessMax
  deriving DecidableEq, Repr

/-- `expand_strategies`, tablenormalizer.py:109-113, tablecolumncontroller.py:61-65;
`none` is the TypeError for an unknown name. -/
def strategyOf (name : String) : Option Strategy :=
  if name = "all" then some .all
  else if name = "all_but_last" then some .allButLast
  else if name = "all_less_maxcount" then some .lessMax
  else none

/-- `expand_cells` of a strategy. -/
def expandCells (s : Strategy) (maxcols : Int) (n : Nat) (k : Forest) : Except Exc (Forest × Nat) :=
  match s with
  | .all => expandKids (expandAll colRep) n k
  | .allButLast => expandKidsLast (expandAll colRep) (expandLast colRep) n k
  | .lessMax => expandKids (expandLess colRep maxcols) n k

/-- `strategy.expand_cells(xmlrow)` for the row with identity `r`. -/
def expandRowCells (st : Strategy) (maxcols : Int) (r : Nat) : Py TState Unit := fun s =>
  match s.kids.find r with
  | none => (s, .ok ())
  | some t => match expandCells st maxcols s.fresh t.2 with
    | .error x => (s, .error x)
    | .ok (k', n) => ({ s with kids := s.kids.subst r fun e _ => .cons e k' .nil, fresh := n }, .ok ())

/-- `expand_row(xmlrow)`, `expand_column(xmlcolumn)`, … for the node with identity `r`. -/
def expandNode (f : Expander) (r : Nat) : Py TState Unit := fun s =>
  match s.kids.find r with
  | none => (s, .ok ())
  | some t => match f s.fresh t with
    | .error x => (s, .error x)
    | .ok (F, n) => ({ s with kids := s.kids.subst r fun _ _ => F, fresh := n }, .ok ())

/-- `f` for all nodes but the last, `g` for the last one. -/
def forButLast (f g : Nat → Py TState Unit) (l : List Nat) : Py TState Unit := do
  forPy f l.dropLast
  match l.getLast? with
  | none => pure ()
  | some x => g x

/-- `normalize` of a strategy, tablenormalizer.py:50-54, 75-84. -/
def normalizeRows (st : Strategy) (maxcount : Int × Int) : Py TState Unit := fun s =>
  let rows := (s.kids.sel isRow).map fun t => t.1.id
  match st with
  | .all => forPy (fun r => do
      expandRowCells .all maxcount.2 r
      expandNode (expandAll rowRep) r) rows s
  | .lessMax => forPy (fun r => do
      expandRowCells .lessMax maxcount.2 r
      expandNode (expandLess rowRep maxcount.1) r) rows s
  | .allButLast => (do
      forPy (expandRowCells .allButLast maxcount.2) rows
      forButLast (expandNode (expandAll rowRep)) (expandNode (expandLast rowRep)) rows
        : Py TState Unit) s

/-- `count_cells_in_row`, tableutils.py:68-69. -/
def countCells : Forest → Except Exc Int
  | .nil => .ok 0
  | .cons e _ r => match repeatCount colRep e with
    | .error x => .error x
    | .ok n => match countCells r with
      | .error x => .error x
      | .ok m => .ok (n + m)

/-- The list comprehension of `get_min_max_cell_count`, tableutils.py:59. -/
def rowCounts : List Tree → Except Exc (List Int)
  | [] => .ok []
  | t :: ts => match countCells t.2 with
    | .error x => .error x
    | .ok n => match rowCounts ts with
      | .error x => .error x
      | .ok ns => .ok (n :: ns)

/-- `get_min_max_cell_count`, tableutils.py:58-63. -/
def minMaxCount (F : Forest) : Except Exc (Int × Int) :=
  match rowCounts (F.sel isRow) with
  | .error x => .error x
  | .ok [] => .ok (0, 0)
  | .ok (n :: ns) => .ok (ns.foldl min n, ns.foldl max n)

/-- Body of the loop of `_align_table_columns`, tablenormalizer.py:142-146. -/
def alignRow (required : Int) (r : Nat) : Py TState Unit := fun s =>
  match s.kids.find r with
  | none => (s, .ok ())
  | some t => match countCells t.2 with
    | .error x => (s, .error x)
    | .ok count =>
      if count < required then
        let m := (required - count).toNat
        ({ s with kids := s.kids.subst r fun e k => .cons e (k ++ newCells s.fresh m) .nil
                  fresh := s.fresh + m }, .ok ())
      else (s, .ok ())

/-- `align_table_columns`, tablenormalizer.py:137-150. -/
def alignColumns : Py TState Unit := fun s =>
  match minMaxCount s.kids with
  | .error x => (s, .error x)
  | .ok (cmin, cmax) =>
    if cmin ≠ cmax then forPy (alignRow cmax) ((s.kids.sel isRow).map fun t => t.1.id) s
    else (s, .ok ())

/-- `normalize_table`, tablenormalizer.py:121-134, 152-157. -/
def normalizeTable (st : Strategy) (maxcount : Int × Int) : Py TState Unit := do
  normalizeRows st maxcount
  alignColumns

/-- `_expand_repeated_content`, tablecolumncontroller.py:92-99, with `expand_columns` of the
strategies, tablecolumncontroller.py:35-37, 45-49. -/
def expandColumns (st : Strategy) (maxcols : Int) : Py TState Unit := fun s =>
  let cols := (s.kids.sel isCol).map fun t => t.1.id
  match st with
  | .all => forPy (expandNode (expandAll colRep)) cols s
  | .lessMax => forPy (expandNode (expandLess colRep maxcols)) cols s
  | .allButLast => forButLast (expandNode (expandAll colRep)) (expandNode (expandLast colRep)) cols s

/-- `Table(xmlnode=…)`, table.py:30-45: `is_table`, tableutils.py:74-78, row controller
(tablerowcontroller.py:17-27, 64-65), its normaliser (tablenormalizer.py:19-24, 116-119), then column
controller (tablecolumncontroller.py:68-76), with the global configuration `strategy`, `maxcount`
(conf.py:13-34).  The state before is a table element with its children. -/
def load (strategy : String) (maxcount : Int × Int) : Py TState Unit := fun s =>
  if s.node.tag ≠ "table:table" then (s, .error .ValueError)
  else match strategyOf strategy with
    | none => (s, .error .TypeError)
    | some st => match normalizeTable st maxcount s with
      | (s1, .error x) => (s1, .error x)
      | (s1, .ok _) => match expandColumns st maxcount.2 (updateRows s1) with
        | (s2, .error x) => (s2, .error x)
        | (s2, .ok _) => (updateCols s2, .ok ())

/-- A table element as found in a document: nothing cached yet, identities below `fresh` in use. -/
def stored (node : Elem) (kids : Forest) (fresh : Nat) : TState :=
  { node := node, kids := kids, rows := [], cols := [], fresh := fresh }

end Verif.Tbl
