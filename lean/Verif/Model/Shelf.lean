import Verif.Model.Desk
import Verif.Model.MixCopy
/-!
# Programs that move tables between documents

As `Model/Room.lean`, with the statements of `Model/Mix.lean` and `Model/MixCopy.lean`: the objects of the program, tables and
others, are not divided among the documents, and any of them can be put into any document, wherever it is now.  lxml moves a
node that is put somewhere, also from the tree of another document.
-/
namespace Verif.Shelf
open Verif Verif.Lxml Verif.Whole Verif.Package
open Verif.Program (TableObj)

/-- The memory, the files, the documents, the objects of the program in the order in which they were made or fetched, and the
tables among them with the lists of their controllers.  The objects that `doc.sheets` has made are found again by all
documents, as the cache is one for all (wrapcache.py:16-24).  The fields `world` and `w.fs` of the documents are not used;
see `put`. -/
structure Shelf where
  world : World
  fs : FS
  docs : List Session
  objs : List Nat
  tables : List TableObj

/-- A document as it is now: with the present memory and files -/
def put (S : Shelf) (s : Session) : Session := { s with world := S.world, w := { s.w with fs := S.fs } }

/-- A document with all objects of the program -/
def seen (S : Shelf) (s : Session) : Mix.Prog := ⟨⟨put S s, S.objs⟩, S.tables⟩

/-- A statement with the document number `i` -/
def onDoc (i : Nat) (m : Py Mix.Prog Unit) : Py Shelf Unit := fun S =>
  match S.docs[i]? with
  | none => (S, .error .NameError)
  | some s =>
    let r := m (seen S s)
    ({ world := r.1.text.session.world, fs := r.1.text.session.w.fs, docs := S.docs.set i r.1.text.session,
       objs := r.1.text.objs, tables := r.1.tables }, r.2)

/-- A document that has been opened or made -/
def add (r : Except Exc Session) : Py Shelf Unit := fun S =>
  match r with
  | .error e => (S, .error e)
  | .ok s => ({ S with world := s.world, fs := s.w.fs, docs := S.docs ++ [s] }, .ok ())

/-- Statements of a program: with the document number `i` those of `Model/Mix.lean` and copies of tables, meta data, other
files of the package, the name, saving; opening a document and making a new one.  The number of the document matters for
`doc.body` and `doc.sheets` only, not for methods of objects. -/
inductive Act (F : Cells.FloatLib)
  | act (i : Nat) (a : Mix.CopyAct F)
  | data (i : Nat) (o : List Meta.Op)
  | file (i : Nat) (n : Str) (x : Element) (t : Str) (now : Nat)
  | name (i : Nat) (f : Option Path)
  | save (i : Nat) (env : Env) (k : Clock) (backup : Bool)
  | saveas (i : Nat) (env : Env) (k : Clock) (backup : Bool) (f : Path)
  | open_ (k : Clock) (src : Source)
  | new (k : Clock) (mt : Str)

/-- A change of the attributes of a document -/
def change (f : Session → Session) : Py Mix.Prog Unit := fun p =>
  ({ p with text := { p.text with session := f p.text.session } }, .ok ())

/-- A statement, with its result given up.  `strategy` and `mx` are the configuration, conf.py:13-34. -/
def exec {F : Cells.FloatLib} (L : XLib) (strategy : String) (mx : Int × Int) : Act F → Py Shelf Unit
  | .act i a => onDoc i (Mix.execCopy strategy mx a)
  | .data i o => onDoc i (change fun s => { s with meta_ := { s.meta_ with m := Meta.run s.meta_.m o } })
  | .file i n x t now => onDoc i (change fun s => { s with w := { s.w with fm := register n x t now s.w.fm } })
  | .name i f => onDoc i (change fun s => { s with docname := f })
  | .save i env k backup => onDoc i (Mix.save L env k backup)
  | .saveas i env k backup f => onDoc i (Mix.saveas L env k backup f)
  | .open_ k src => fun S => add (openWhole L S.fs k src S.world) S
  | .new k mt => fun S => add (Desk.newIn L S.fs k mt S.world) S

end Verif.Shelf
