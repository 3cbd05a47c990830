import Verif.Model.Lxml
/-!
# Model of `ezodf/base.py`: the list operations of `GenericWrapper`

A wrapper is represented by the identity of its `xmlnode`; `wrap` does not change the tree for the
wrappers concerned (wrappers that do, like `Table` and the bodies, are modelled in their own
modules).  `int(index)` is applied to an integer.
-/
namespace Verif.Base
open Verif Verif.Lxml

/-- `__len__`, base.py:29-30. -/
def len (p : Nat) : Py World Nat := fun W =>
  match W.find p with
  | none => (W, .error .TypeError)
  | some t => (W, .ok t.2.length)

/-- `__iter__`, base.py:26-27: the wrapped children, as a list. -/
def iter (p : Nat) : Py World (List Nat) := fun W =>
  match W.find p with
  | none => (W, .error .TypeError)
  | some t => (W, .ok (roots t.2))

/-- `index`, base.py:72-74. -/
def index (p child : Nat) : Py World Nat := Lxml.index p child

/-- `insert`, base.py:76-79: returns the child. -/
def insert (p : Nat) (i : Int) (child : Nat) : Py World Nat := do
  Lxml.insert p i child
  return child

/-- `get_child`, base.py:81-84, also `__getitem__`, base.py:59-60. -/
def getChild (p : Nat) (i : Int) : Py World Nat := do
  let xmlelement ← Lxml.getitem p i
  return xmlelement

/-- `set_child`, base.py:86-89, also `__setitem__`, base.py:62-63. -/
def setChild (p : Nat) (i : Int) (element : Nat) : Py World Unit := do
  let found ← Lxml.getitem p i
  Lxml.replace p found element

/-- `del_child`, base.py:91-93, also `__delitem__`, base.py:65-66. -/
def delChild (p : Nat) (i : Int) : Py World Unit := Lxml.delitem p i

/-- `findall`, base.py:95-97. -/
def findall (p : Nat) (tag : String) : Py World (List Nat) := Lxml.findall p tag

/-- `find`, base.py:99-102. -/
def find (p : Nat) (tag : String) : Py World (Option Nat) := do
  let found ← Lxml.findall p tag
  return found.head?

/-- `append`, base.py:132-135, also `__iadd__`, base.py:68-70: returns the child. -/
def append (p child : Nat) : Py World Nat := do
  Lxml.append p child
  return child

/-- `insert_before`, base.py:137-141. -/
def insertBefore (p target child : Nat) : Py World Nat := do
  let position ← index p target
  let _ ← insert p position child
  return child

/-- `remove`, base.py:143-145. -/
def remove (p child : Nat) : Py World Unit := Lxml.remove p child

/-- `replace`, base.py:147-148. -/
def replace (p child newchild : Nat) : Py World Unit := Lxml.replace p child newchild

/-- `clear`, base.py:150-152. -/
def clear (p : Nat) : Py World Unit := Lxml.clear p

/-- lxml `getparent()`: the parent of node `i`; `par` is the parent of the nodes of this level. -/
def parentIn (i : Nat) : Option Nat → Forest → Option Nat
  | _, .nil => none
  | par, .cons e k r =>
    if e.id = i then par
    else if (k.find i).isSome then parentIn i (some e.id) k
    else parentIn i par r

/-- The `while` loop of `get_xmlroot`, base.py:52-54, with a bound on the number of rounds. -/
def climb : Nat → World → Nat → Nat
  | 0, _, x => x
  | n + 1, W, x =>
    match parentIn x none W with
    | none => x
    | some parent => climb n W parent

/-- `get_xmlroot`, base.py:50-55.  The number of nodes bounds the rounds of the loop. -/
def getXmlroot (p : Nat) : Py World Nat := fun W => (W, .ok (climb (Forest.ids W).length W p))

end Verif.Base
