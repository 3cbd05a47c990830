import Verif.Model.TextProgram
import Verif.Model.PageContainer
/-!
# Programs with the pages of a drawing or a presentation

This joins the programs of `Model/TextProgram.lean` with the pages of `Model/PageContainer.lean`: `doc.pages` works on the
tree of the document, and this tree is what is saved.
-/
namespace Verif.PageProg
open Verif Verif.Lxml Verif.Whole Verif.Package Verif.TextProg

/-- `DrawingPage.__init__`, drawingpage.py:17-24, with the setter of `name`, drawingpage.py:29-31; also
`PresentationPage`, presentationpage.py:13-15.  `_setup_new_page` does nothing. -/
def newPage (name : Str) : Py World Nat := do
  let n ← newNode { id := 0, tag := "draw:page" }
  setAttr n "draw:name" name
  return n

/-- The document, the objects of the program (pages among them) and the cache of `wrapcache.py` -/
structure Prog where
  text : TextProg.Prog
  heap : WrapCache.Heap

abbrev Prog.world (p : Prog) : World := p.text.world

/-- A statement that does not use the cache -/
def onText {α : Type} (m : Py TextProg.Prog α) : Py Prog α := fun p =>
  let r := m p.text
  ({ p with text := r.1 }, r.2)

/-- `doc.pages`, document.py:131-135: only drawings and presentations have the attribute. -/
def onPages {α : Type} (m : Pages.Container → Py Pages.S α) : Py Prog α := fun p =>
  match p.text.session.tree.pages with
  | none => (p, .error .AttributeError)
  | some b =>
    let r := m (Pages.pages b) ⟨p.text.session.world, p.heap⟩
    ({ text := { p.text with session := { p.text.session with world := r.1.world } }, heap := r.1.heap }, r.2)

/-- An object as an argument: the class attribute `TAG` is the tag of the element, as classes are registered by their tags
(xmlns.py:82-85); `GenericWrapper` has another one (base.py:18), which is no tag of an element either. -/
def child (i : Nat) : Py Prog Pages.Child := do
  let n ← onText (obj i)
  fun p => (p, .ok ⟨(p.world.find n).map fun t => t.1.tag, n⟩)

/-- The object that was found becomes an object of the program. -/
def take (o : WrapCache.Obj) : Py Prog Unit := fun p =>
  ({ p with text := { p.text with objs := p.text.objs ++ [o.node] } }, .ok ())

/-- Statements of a program -/
inductive Act
  | text (a : TextProg.Act)
  | page (name : Str)
  | append (i : Nat)
  | insert (index : Int) (i : Nat)
  | get (key : Pages.Key)
  | set (key : Pages.Key) (i : Nat)
  | delete (key : Pages.Key)

/-- A statement, with its result given up.  `doc.pages` is evaluated before the arguments; this matters only for the
exception when both fail. -/
def exec (pick : Nat → List Nat → Nat) : Act → Py Prog Unit
  | .text a => onText (TextProg.exec a)
  | .page name => onText do let _ ← keep (newPage name)
  | .append i => do
    let c ← child i
    let _ ← onPages fun pages => Pages.append pages c
  | .insert index i => do
    let c ← child i
    let _ ← onPages fun pages => Pages.insert pages index c.xmlnode
  | .get key => do
    let o ← onPages fun pages => Pages.getitem pick pages key
    take o
  | .set key i => do
    let c ← child i
    onPages fun pages => Pages.setitem pick pages key c
  | .delete key => onPages fun pages => Pages.delitem pick pages key

/-- `doc.save()`, document.py:118-125 -/
def save (L : XLib) (env : Env) (k : Clock) (backup : Bool) : Py Prog Unit := onText (TextProg.save L env k backup)

/-- `doc.saveas(filename)`, document.py:114-116 -/
def saveas (L : XLib) (env : Env) (k : Clock) (backup : Bool) (f : Path) : Py Prog Unit :=
  onText (TextProg.saveas L env k backup f)

end Verif.PageProg
