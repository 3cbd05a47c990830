import Verif.Model.PageProgram
import Verif.Proofs.MetaAbs
/-!
# Programs with several documents

All documents of a program share the memory (all lxml nodes), the cache of `wrapcache.py`, which is one dictionary of the
module, and the files.  Node identities are unique in the whole memory.
-/
namespace Verif.Desk
open Verif Verif.Lxml Verif.Whole Verif.Package

/-- The memory, the cache, the files, and the documents with the objects that the program uses with them.  The fields
`world` and `w.fs` of the documents are not used; see `seen`. -/
structure Desk where
  world : World
  heap : WrapCache.Heap
  fs : FS
  docs : List TextProg.Prog

/-- A document as it is now: with the present memory and files -/
def seen (D : Desk) (p : TextProg.Prog) : TextProg.Prog :=
  { p with session := { p.session with world := D.world, w := { p.session.w with fs := D.fs } } }

/-- The document number `i` -/
def view (D : Desk) (i : Nat) : Option TextProg.Prog := D.docs[i]?.map (seen D)

/-- A statement with the document number `i` -/
def onDoc {α : Type} (i : Nat) (m : Py PageProg.Prog α) : Py Desk α := fun D =>
  match view D i with
  | none => (D, .error .NameError)
  | some p =>
    let r := m ⟨p, D.heap⟩
    ({ world := r.1.text.session.world, heap := r.1.heap, fs := r.1.text.session.w.fs, docs := D.docs.set i r.1.text }, r.2)

/-- A document that has been opened or made -/
def add (r : Except Exc Session) : Py Desk Unit := fun D =>
  match r with
  | .error e => (D, .error e)
  | .ok s => ({ D with world := s.world, fs := s.w.fs, docs := D.docs ++ [⟨s, []⟩] }, .ok ())

/-- `newdoc` without a template, document.py:71-78 and 203-229, in the memory `W` -/
def newIn (L : XLib) (fs : FS) (k : Clock) (mt : Str) (W : World) : Except Exc Session :=
  match open_ L.pkg fs (.file none) k.now with
  | .error e => .error e
  | .ok fm => packagedWhole L fs k fm (some mt) W

/-- Statements of a program: with the document number `i` those of `Model/PageProgram.lean`, meta data, other files of the
package, the name, saving; opening a document and making a new one.  Objects belong to the document that they are made
for; for statements that put an object of one document into another one see `Model/Room.lean`. -/
inductive Act
  | act (i : Nat) (a : PageProg.Act)
  | data (i : Nat) (o : List Meta.Op)
  | file (i : Nat) (n : Str) (x : Element) (t : Str) (now : Nat)
  | name (i : Nat) (f : Option Path)
  | save (i : Nat) (env : Env) (k : Clock) (backup : Bool)
  | saveas (i : Nat) (env : Env) (k : Clock) (backup : Bool) (f : Path)
  | open_ (k : Clock) (src : Source)
  | new (k : Clock) (mt : Str)

/-- A change of the attributes of a document -/
def change (f : Session → Session) : Py PageProg.Prog Unit := fun p =>
  ({ p with text := { p.text with session := f p.text.session } }, .ok ())

/-- A statement, with its result given up -/
def exec (L : XLib) (pick : Nat → List Nat → Nat) : Act → Py Desk Unit
  | .act i a => onDoc i (PageProg.exec pick a)
  | .data i o => onDoc i (change fun s => { s with meta_ := { s.meta_ with m := Meta.run s.meta_.m o } })
  | .file i n x t now => onDoc i (change fun s => { s with w := { s.w with fm := register n x t now s.w.fm } })
  | .name i f => onDoc i (change fun s => { s with docname := f })
  | .save i env k backup => onDoc i (PageProg.save L env k backup)
  | .saveas i env k backup f => onDoc i (PageProg.saveas L env k backup f)
  | .open_ k src => fun D => add (openWhole L D.fs k src D.world) D
  | .new k mt => fun D => add (newIn L D.fs k mt D.world) D

end Verif.Desk
