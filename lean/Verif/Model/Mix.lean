import Verif.Model.TextProgram
import Verif.Model.Program
/-!
# Programs with text objects and tables in one document

This joins the programs of `Model/TextProgram.lean` with those of `Model/Program.lean`: tables are put into the body of a
document of any kind, into sections and other objects, as children like all others.
-/
namespace Verif.Mix
open Verif Verif.Lxml Verif.Whole Verif.Package
open Verif.Program (TableObj)

/-- The document and the objects of the program in the order in which they were made; the tables are also listed for
themselves, with the lists of their controllers. -/
structure Prog where
  text : TextProg.Prog
  tables : List TableObj

abbrev Prog.world (p : Prog) : World := p.text.world

/-- The document and the tables alone -/
def Prog.sheets (p : Prog) : Program.Prog := ⟨p.text.session, p.tables⟩

def Prog.setWorld (p : Prog) (W : World) : Prog :=
  { p with text := { p.text with session := { p.text.session with world := W } } }

/-- A statement that makes no table object -/
def onText {α : Type} (m : Py TextProg.Prog α) : Py Prog α := fun p =>
  let r := m p.text
  ({ p with text := r.1 }, r.2)

/-- A statement with sheets and tables; new table objects are objects of the program. -/
def onProgram {α : Type} (m : Py Program.Prog α) : Py Prog α := fun p =>
  let r := m p.sheets
  ({ text := ⟨r.1.session, p.text.objs ++ (r.1.tables.drop p.tables.length).map fun o => o.node⟩, tables := r.1.tables }, r.2)

/-- `Table(xmlnode=node)`, table.py:30-45, as `wrap` calls it (xmlns.py:87-94): a new object for the element, whose
constructor expands the repetitions.  `strategy` and `mx` are the configuration, conf.py:13-34. -/
def wrapTable (strategy : String) (mx : Int × Int) (t : Tree) : Py Program.Prog Unit := fun p =>
  match Tbl.load strategy mx (Tbl.stored t.1 t.2 (Parts.newId p.world)) with
  | (T, .error e) => (p.setWorld (Program.putTable t.1.id T p.world), .error e)
  | (T, .ok _) => ({ p.setWorld (Program.putTable t.1.id T p.world) with
      tables := p.tables ++ [⟨t.1.id, T.rows, T.cols⟩] }, .ok ())

/-- `p.get_child(index)`, base.py:81-84: the child as a new object, a table or another one.  A program calls it for a table
only once; a second object for the same table would have its own lists of rows and columns. -/
def grab (strategy : String) (mx : Int × Int) (t : Option Nat) (index : Int) : Py Prog Unit := fun p =>
  match (TextProg.target t >>= fun n => TextProg.onWorld (Base.getChild n index)) p.text with
  | (_, .error e) => (p, .error e)
  | (_, .ok c) => match p.world.find c with
    | none => (p, .error .TypeError)
    | some u =>
      if u.1.tag = "table:table" then onProgram (wrapTable strategy mx u) p
      else onText (TextProg.exec (.get t index)) p

/-- Statements of a program -/
inductive Act (F : Cells.FloatLib)
  | text (a : TextProg.Act)
  | table (a : Program.Act F)
  | grab (t : Option Nat) (index : Int)

/-- A statement, with its result given up -/
def exec {F : Cells.FloatLib} (strategy : String) (mx : Int × Int) : Act F → Py Prog Unit
  | .text a => onText (TextProg.exec a)
  | .table a => onProgram (Program.exec strategy mx a)
  | .grab t index => grab strategy mx t index

/-- `doc.save()`, document.py:118-125 -/
def save (L : XLib) (env : Env) (k : Clock) (backup : Bool) : Py Prog Unit := onText (TextProg.save L env k backup)

/-- `doc.saveas(filename)`, document.py:114-116 -/
def saveas (L : XLib) (env : Env) (k : Clock) (backup : Bool) (f : Path) : Py Prog Unit :=
  onText (TextProg.saveas L env k backup f)

end Verif.Mix
