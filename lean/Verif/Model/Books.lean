import Verif.Model.Desk
import Verif.Model.MixCopy
/-!
# Programs with several documents that have tables

As `Model/Desk.lean`, with the statements of `Model/Mix.lean` and `Model/MixCopy.lean` for each document.  All documents of a
program share the memory (all lxml nodes) and the files.
-/
namespace Verif.Books
open Verif Verif.Lxml Verif.Whole Verif.Package
open Verif.Program (tableState)

/-- The memory, the files, and the documents with the objects that the program uses with them.  The fields `world` and
`w.fs` of the documents are not used; see `seen`. -/
structure Books where
  world : World
  fs : FS
  docs : List Mix.Prog

/-- A document as it is now: with the present memory and files -/
def seen (B : Books) (p : Mix.Prog) : Mix.Prog :=
  { p with text := { p.text with session := { p.text.session with world := B.world, w := { p.text.session.w with fs := B.fs } } } }

/-- The document number `i` -/
def view (B : Books) (i : Nat) : Option Mix.Prog := B.docs[i]?.map (seen B)

/-- A statement with the document number `i` -/
def onDoc (i : Nat) (m : Py Mix.Prog Unit) : Py Books Unit := fun B =>
  match view B i with
  | none => (B, .error .NameError)
  | some p =>
    let r := m p
    ({ world := r.1.text.session.world, fs := r.1.text.session.w.fs, docs := B.docs.set i r.1 }, r.2)

/-- A document that has been opened or made -/
def add (r : Except Exc Session) : Py Books Unit := fun B =>
  match r with
  | .error e => (B, .error e)
  | .ok s => ({ world := s.world, fs := s.w.fs, docs := B.docs ++ [⟨⟨s, []⟩, []⟩] }, .ok ())

/-- `t.copy(newname)`, table.py:101-106, for the `k`-th table object of the document number `i`.  The copy is in no document;
the program uses it with the document number `j`. -/
def copyTo (strategy : String) (mx : Int × Int) (i k : Nat) (newname : Option Str) (j : Nat) : Py Books Unit := fun B =>
  match B.docs[i]? with
  | none => (B, .error .NameError)
  | some p => match p.tables[k]? with
    | none => (B, .error .NameError)
    | some o => match B.world.find o.node with
      | none => (B, .error .NameError)
      | some t => match Tbl.copyTable strategy mx newname (tableState B.world o t) with
        | .error e => (B, .error e)
        | .ok c => onDoc j (fun q => (Mix.withTable q c, .ok ())) B

/-- Statements of a program: with the document number `i` those of `Model/Mix.lean` and copies of tables, meta data, other
files of the package, the name, saving; copying a table of one document for another one; opening a document and making a
new one.  Objects belong to the document that they are made for; no object is put into another document. -/
inductive Act (F : Cells.FloatLib)
  | act (i : Nat) (a : Mix.CopyAct F)
  | copyTo (i k : Nat) (newname : Option Str) (j : Nat)
  | data (i : Nat) (o : List Meta.Op)
  | file (i : Nat) (n : Str) (x : Element) (t : Str) (now : Nat)
  | name (i : Nat) (f : Option Path)
  | save (i : Nat) (env : Env) (k : Clock) (backup : Bool)
  | saveas (i : Nat) (env : Env) (k : Clock) (backup : Bool) (f : Path)
  | open_ (k : Clock) (src : Source)
  | new (k : Clock) (mt : Str)

/-- A change of the attributes of a document -/
def change (f : Session → Session) : Py Mix.Prog Unit := fun p =>
  ({ p with text := { p.text with session := f p.text.session } }, .ok ())

/-- A statement, with its result given up.  `strategy` and `mx` are the configuration, conf.py:13-34. -/
def exec {F : Cells.FloatLib} (L : XLib) (strategy : String) (mx : Int × Int) : Act F → Py Books Unit
  | .act i a => onDoc i (Mix.execCopy strategy mx a)
  | .copyTo i k newname j => copyTo strategy mx i k newname j
  | .data i o => onDoc i (change fun s => { s with meta_ := { s.meta_ with m := Meta.run s.meta_.m o } })
  | .file i n x t now => onDoc i (change fun s => { s with w := { s.w with fm := register n x t now s.w.fm } })
  | .name i f => onDoc i (change fun s => { s with docname := f })
  | .save i env k backup => onDoc i (Mix.save L env k backup)
  | .saveas i env k backup f => onDoc i (Mix.saveas L env k backup f)
  | .open_ k src => fun B => add (openWhole L B.fs k src B.world) B
  | .new k mt => fun B => add (Desk.newIn L B.fs k mt B.world) B

end Verif.Books
