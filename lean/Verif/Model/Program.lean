import Verif.Model.Whole
import Verif.Model.TableWrite
import Verif.Model.Normalizer
import Verif.Model.PageContainer
/-!
# Programs with a document: its sheets and the table objects

This joins the model of whole documents (`Model/Whole.lean`) with those of the sheets (`Model/PageContainer.lean`) and
of tables (`Model/Table.lean`, `Normalizer.lean`, `TableWrite.lean`): a table object works on the element in the tree of
the document, and that tree is what is saved.
-/
namespace Verif.Program
open Verif Verif.Lxml Verif.Whole Verif.Tbl Verif.Package

/-- A `Table` object, table.py:30-45: its element, and the lists of rows and columns of its controllers
(tablerowcontroller.py:17-31, tablecolumncontroller.py:68-80). -/
structure TableObj where
  node : Nat
  rows : List Nat
  cols : List Nat

/-- The document and the table objects of the program, in the order in which they were made. -/
structure Prog where
  session : Session
  tables : List TableObj

def Prog.world (p : Prog) : World := p.session.world

def Prog.setWorld (p : Prog) (W : World) : Prog := { p with session := { p.session with world := W } }

/-- The table with its element `t`, as the methods of the object find it.  New elements get identities that are not in
use. -/
def tableState (W : World) (o : TableObj) (t : Tree) : TState :=
  { node := t.1, kids := t.2, rows := o.rows, cols := o.cols, fresh := Parts.newId W }

/-- The element of the table with identity `n` as a method left it.  Elements that were taken out of the table are
given up. -/
def putTable (n : Nat) (T : TState) (W : World) : World := W.subst n fun _ _ => Forest.single (T.node, T.kids)

/-- `Table(name, size)`, table.py:30-45: a table outside of the document; the result is the number of the object.  When
the constructor raises there is no object. -/
def create (name : Str) (size : Int × Int) : Py Prog Nat := fun p =>
  match newTable (Parts.newId p.world) name size with
  | (_, .error e) => (p, .error e)
  | (T, .ok _) => ({ p.setWorld (p.world ++ Forest.single (T.node, T.kids)) with
      tables := p.tables ++ [⟨T.node.id, T.rows, T.cols⟩] }, .ok p.tables.length)

/-- A method of the `i`-th table object.  A program has no other objects than those that were made (NameError). -/
def onTable (i : Nat) (m : Py TState Unit) : Py Prog Unit := fun p =>
  match p.tables[i]? with
  | none => (p, .error .NameError)
  | some o => match p.world.find o.node with
    | none => (p, .error .TypeError)
    | some t =>
      let r := m (tableState p.world o t)
      ({ p.setWorld (putTable o.node r.1 p.world) with tables := p.tables.set i ⟨o.node, r.1.rows, r.1.cols⟩ }, r.2)

/-- `doc.sheets`, document.py:131-135: only spreadsheets have the attribute. -/
def onSheets {α : Type} (m : Nat → Py World α) : Py Prog α := fun p =>
  match p.session.tree.sheets with
  | none => (p, .error .AttributeError)
  | some b =>
    let r := m b p.world
    (p.setWorld r.1, r.2)

/-- The node of the `i`-th table object -/
def nodeOf (i : Nat) : Py Prog Nat := fun p =>
  match p.tables[i]? with
  | none => (p, .error .NameError)
  | some o => (p, .ok o.node)

/-- `doc.sheets.append(table)` and `doc.sheets += table`, pagecontainer.py:56-58, 76-81; a `Table` is a valid child. -/
def append (i : Nat) : Py Prog Unit := do
  let n ← nodeOf i
  onSheets fun b => Lxml.append b n

/-- `doc.sheets.insert(index, table)`, pagecontainer.py:89-91; the index counts all children of the body. -/
def insert (index : Int) (i : Nat) : Py Prog Unit := do
  let n ← nodeOf i
  onSheets fun b => Lxml.insert b index n

/-- `_child_by_index` and `_child_by_name`, pagecontainer.py:28-34, 66-74, up to the element -/
def findSheet (key : Pages.Key) (l : List Tree) : Except Exc Tree :=
  match key with
  | .int i => match pyIdx l.length i with
    | none => .error .IndexError
    | some n => match l[n]? with
      | none => .error .IndexError
      | some t => .ok t
  | .str s => match l.find? fun t => t.1.get "table:name" = some s with
    | none => .error .KeyError
    | some t => .ok t
  | .other => .error .TypeError

/-- The element of `doc.sheets[key]` -/
def sheetElem (key : Pages.Key) : Py Prog Tree := fun p =>
  match p.session.tree.sheets with
  | none => (p, .error .AttributeError)
  | some b => match p.world.find b with
    | none => (p, .error .TypeError)
    | some t => (p, findSheet key (t.2.toList.filter fun u => u.1.tag = "table:table"))

/-- `doc.sheets[key]`, pagecontainer.py:28-34, with `wrapcache.wrap`, wrapcache.py: the object of the element if there is
one, or a new object, whose constructor expands the repetitions (table.py:30-45).  The result is the number of the
object.  The cache holds the objects themselves (wrapcache.py:16-24), so they are never given up.  `strategy` and `mx` are the configuration, conf.py:13-34. -/
def access (strategy : String) (mx : Int × Int) (key : Pages.Key) : Py Prog Nat := do
  let t ← sheetElem key
  fun p =>
    match p.tables.findIdx? fun o => o.node = t.1.id with
    | some i => (p, .ok i)
    | none => match load strategy mx (stored t.1 t.2 (Parts.newId p.world)) with
      | (T, .error e) => (p.setWorld (putTable t.1.id T p.world), .error e)
      | (T, .ok _) => ({ p.setWorld (putTable t.1.id T p.world) with
          tables := p.tables ++ [⟨t.1.id, T.rows, T.cols⟩] }, .ok p.tables.length)

/-- `del doc.sheets[key]`, pagecontainer.py:47-54 -/
def delete (strategy : String) (mx : Int × Int) (key : Pages.Key) : Py Prog Unit := do
  let i ← access strategy mx key
  let n ← nodeOf i
  onSheets fun b => Lxml.remove b n

/-- `doc.sheets[key] = table`, pagecontainer.py:36-45 -/
def replace (strategy : String) (mx : Int × Int) (key : Pages.Key) (i : Nat) : Py Prog Unit := do
  let n ← nodeOf i
  let j ← access strategy mx key
  let old ← nodeOf j
  onSheets fun b => Lxml.replace b old n

/-- `doc.save()`, document.py:118-125 -/
def save (L : XLib) (env : Env) (k : Clock) (backup : Bool) : Py Prog Unit := fun p =>
  let r := saveWhole L env k backup p.session
  ({ p with session := r.1 }, r.2)

/-- `doc.saveas(filename)`, document.py:114-116 -/
def saveas (L : XLib) (env : Env) (k : Clock) (backup : Bool) (f : Path) : Py Prog Unit := fun p =>
  let r := saveasWhole L env k backup f p.session
  ({ p with session := r.1 }, r.2)

/-- Statements of a program that work on sheets and tables -/
inductive Act (L : Cells.FloatLib)
  | create (name : Str) (size : Int × Int)
  | call (i : Nat) (op : Tbl.Op)
  | write (i : Nat) (pos : Int × Int) (c : CellCall L)
  | writeRow (i : Nat) (index : Int) (c : LineCall)
  | writeColumn (i : Nat) (index : Int) (c : LineCall)
  | append (i : Nat)
  | insert (index : Int) (i : Nat)
  | access (key : Pages.Key)
  | delete (key : Pages.Key)
  | replace (key : Pages.Key) (i : Nat)

/-- A statement, with its result given up -/
def exec {L : Cells.FloatLib} (strategy : String) (mx : Int × Int) : Act L → Py Prog Unit
  | .create name size => do let _ ← create name size
  | .call i op => onTable i (Tbl.run op)
  | .write i pos c => onTable i (onCell pos c.run)
  | .writeRow i index c => onTable i (onRow index c.run)
  | .writeColumn i index c => onTable i (onColumn index c.run)
  | .append i => append i
  | .insert index i => insert index i
  | .access key => do let _ ← access strategy mx key
  | .delete key => delete strategy mx key
  | .replace key i => replace strategy mx key i

end Verif.Program
