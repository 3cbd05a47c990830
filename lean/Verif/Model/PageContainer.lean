import Verif.Model.Lxml
import Verif.Model.WrapCache
/-!
# Model of `ezodf/pagecontainer.py`, `sheets.py`, `pages.py` and the bodies of `body.py`

The state is the world of nodes and the heap of wrapper objects.  Building a `Table` wrapper also
normalizes the table element itself (modelled in Normalizer and Table); this does not change the
children of the body and is left out here.  `findall` also makes proxies of the children that are not
wrapped, which go away at once; they only forbid some addresses to the allocator, so this is covered
by the arbitrary allocator of the heap.
-/
namespace Verif.Pages
open Verif Verif.Lxml Verif.WrapCache

structure S where
  world : World
  heap : Heap
  deriving DecidableEq

/-- An operation on the tree. -/
def onWorld {α : Type} (m : Py World α) : Py S α := fun s =>
  let (W, r) := m s.world
  ({ s with world := W }, r)

/-- `AbstractPageContainer.__init__`, pagecontainer.py:14-17 -/
structure Container where
  xmlnode : Nat
  childtag : String
  nametag : String

/-- `Sheets`, sheets.py:13-16 -/
def sheets (body : Nat) : Container := ⟨body, "table:table", "table:name"⟩

/-- `Pages`, pages.py:13-16 -/
def pages (body : Nat) : Container := ⟨body, "draw:page", "draw:name"⟩

/-- A value given as child: the class attribute `TAG` (if it has one) and its `xmlnode`. -/
structure Child where
  TAG : Option String
  xmlnode : Nat

/-- A key: an int (or bool), a string, or something else. -/
inductive Key
  | int (i : Int)
  | str (s : Str)
  | other
  deriving DecidableEq

variable (pick : Nat → List Nat → Nat) (c : Container)

/-- `_xmlchildren`, pagecontainer.py:25-26 -/
def xmlchildren : Py S (List Tree) := fun s =>
  match s.world.find c.xmlnode with
  | none => (s, .error .TypeError)
  | some t => (s, .ok (t.2.toList.filter fun u => u.1.tag = c.childtag))

/-- `wrapcache.wrap(child)` -/
def wrapChild (n : Nat) : Py S Obj := fun s =>
  let (h, o) := WrapCache.wrap pick (c.childtag = "table:table") n s.heap
  ({ s with heap := h }, .ok o)

/-- `__len__`, pagecontainer.py:19-20 -/
def len : Py S Nat := do
  let l ← xmlchildren c
  return l.length

/-- `wrapcache.wrap` of each child in turn -/
def wrapAll : List Tree → Py S (List Obj)
  | [] => pure []
  | t :: ts => do
    let o ← wrapChild pick c t.1.id
    let os ← wrapAll ts
    return o :: os

/-- `__iter__`, pagecontainer.py:22-23, run to its end -/
def iter : Py S (List Obj) := do
  let l ← xmlchildren c
  wrapAll pick c l

/-- Loop of `_child_by_name`, pagecontainer.py:67-70 -/
def findName (name : Str) : List Tree → Py S Obj
  | [] => .raise .KeyError
  | t :: ts => if t.1.get c.nametag = some name then wrapChild pick c t.1.id else findName name ts

/-- `_child_by_name`, pagecontainer.py:66-70 -/
def childByName (name : Str) : Py S Obj := do
  let l ← xmlchildren c
  findName pick c name l

/-- `_child_by_index`, pagecontainer.py:72-74 -/
def childByIndex (i : Int) : Py S Obj := do
  let l ← xmlchildren c
  match pyIdx l.length i with
  | none => .raise .IndexError
  | some n =>
    match l[n]? with
    | none => .raise .IndexError
    | some t => wrapChild pick c t.1.id

/-- `__getitem__`, pagecontainer.py:28-34 -/
def getitem : Key → Py S Obj
  | .int i => childByIndex pick c i
  | .str s => childByName pick c s
  | .other => .raise .TypeError

/-- `_is_valid_child`, pagecontainer.py:60-64 -/
def isValidChild (child : Child) : Bool := child.TAG = some c.childtag

/-- `__setitem__`, pagecontainer.py:36-45 -/
def setitem (key : Key) (child : Child) : Py S Unit :=
  if !isValidChild c child then .raise .TypeError
  else do
    let oldchild ← match key with
      | .int i => childByIndex pick c i
      | .str s => childByName pick c s
      | .other => .raise .TypeError
    onWorld (Lxml.replace c.xmlnode oldchild.node child.xmlnode)

/-- `__delitem__`, pagecontainer.py:47-54 -/
def delitem (key : Key) : Py S Unit := do
  let oldchild ← match key with
    | .int i => childByIndex pick c i
    | .str s => childByName pick c s
    | .other => .raise .TypeError
  onWorld (Lxml.remove c.xmlnode oldchild.node)

/-- `append`, pagecontainer.py:76-81, also `__iadd__`, pagecontainer.py:56-58 -/
def append (child : Child) : Py S Nat :=
  if isValidChild c child then do
    onWorld (Lxml.append c.xmlnode child.xmlnode)
    return child.xmlnode
  else .raise .TypeError

/-- `names`, pagecontainer.py:83-84, run to its end -/
def names : Py S (List (Option Str)) := do
  let l ← xmlchildren c
  return l.map fun t => t.1.get c.nametag

/-- `index`, pagecontainer.py:86-87 -/
def index (child : Nat) : Py S Nat := onWorld (Lxml.index c.xmlnode child)

/-- `insert`, pagecontainer.py:89-91 -/
def insert (i : Int) (child : Nat) : Py S Nat := do
  onWorld (Lxml.insert c.xmlnode i child)
  return child

end Verif.Pages
namespace Verif.Body
open Verif Verif.Lxml

/-- `subelement`, xmlns.py:14-20, with `new=True`; `fresh` is the identity of a new node. -/
def subelement (fresh parent : Nat) (tag : String) : Py World Nat := fun W =>
  match W.find parent with
  | none => (W, .error .TypeError)
  | some t =>
    match t.2.toList.find? (fun u => u.1.tag = tag) with
    | some u => (W, .ok u.1.id)
    | none =>
      (Forest.mapKids parent (· ++ Forest.single (⟨fresh, tag, [], none, none⟩, .nil)) W, .ok fresh)

end Verif.Body
