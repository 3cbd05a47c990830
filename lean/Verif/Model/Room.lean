import Verif.Model.Desk
/-!
# Programs that move objects between documents

As in `Model/Desk.lean` all documents share the memory, the cache and the files; here the objects of the program are not
divided among the documents either: any object can be put into any document or into any other object, wherever it is now.
lxml moves a node that is put somewhere, also from the tree of another document.
-/
namespace Verif.Room
open Verif Verif.Lxml Verif.Whole Verif.Package
open Verif.Desk (Act newIn change)

/-- The memory, the cache, the files, the documents, and the objects of the program in the order in which they were made or
fetched.  The fields `world` and `w.fs` of the documents are not used; see `put`. -/
structure Room where
  world : World
  heap : WrapCache.Heap
  fs : FS
  docs : List Session
  objs : List Nat

/-- A document as it is now: with the present memory and files -/
def put (R : Room) (s : Session) : Session := { s with world := R.world, w := { s.w with fs := R.fs } }

/-- A document with all objects of the program -/
def seen (R : Room) (s : Session) : PageProg.Prog := ⟨⟨put R s, R.objs⟩, R.heap⟩

/-- A statement with the document number `i` -/
def onDoc {α : Type} (i : Nat) (m : Py PageProg.Prog α) : Py Room α := fun R =>
  match R.docs[i]? with
  | none => (R, .error .NameError)
  | some s =>
    let r := m (seen R s)
    ({ world := r.1.text.session.world, heap := r.1.heap, fs := r.1.text.session.w.fs, docs := R.docs.set i r.1.text.session,
       objs := r.1.text.objs }, r.2)

/-- A document that has been opened or made -/
def add (r : Except Exc Session) : Py Room Unit := fun R =>
  match r with
  | .error e => (R, .error e)
  | .ok s => ({ R with world := s.world, fs := s.w.fs, docs := R.docs ++ [s] }, .ok ())

/-- A statement, with its result given up.  The statements are those of `Model/Desk.lean`; the number of the document matters
for `doc.body` and `doc.pages` only, not for methods of objects. -/
def exec (L : XLib) (pick : Nat → List Nat → Nat) : Act → Py Room Unit
  | .act i a => onDoc i (PageProg.exec pick a)
  | .data i o => onDoc i (change fun s => { s with meta_ := { s.meta_ with m := Meta.run s.meta_.m o } })
  | .file i n x t now => onDoc i (change fun s => { s with w := { s.w with fm := register n x t now s.w.fm } })
  | .name i f => onDoc i (change fun s => { s with docname := f })
  | .save i env k backup => onDoc i (PageProg.save L env k backup)
  | .saveas i env k backup f => onDoc i (PageProg.saveas L env k backup f)
  | .open_ k src => fun R => add (openWhole L R.fs k src R.world) R
  | .new k mt => fun R => add (newIn L R.fs k mt R.world) R

end Verif.Room
