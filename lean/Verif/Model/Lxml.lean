import Verif.Model.XmlTree
/-!
# lxml element operations that move nodes

A `World` is the set of all trees a program holds nodes of: its top level lists the root elements
of all documents and all detached elements (the order of the top level has no meaning).  Nodes are
named by their identities.  Part of the trusted base: these definitions write down the documented
behaviour of `lxml.etree._Element` used by base.py, pagecontainer.py, styles.py and variables.py.
The tail of an element moves with it, except that `del node[i]` and `clear()` drop the tail.
Comments and processing instructions are not distinguished from elements.  An operation on an
identity that is not in the world does not occur in a program; the model returns `TypeError`.
-/
namespace Verif.Lxml
open Verif

/-- All root elements and detached elements with their descendants. -/
abbrev World := Forest

/-- Identities of the top level nodes. -/
def roots (F : Forest) : List Nat := F.toList.map fun t => t.1.id

/-- The node is taken out of its place. -/
def detach (c : Nat) (W : World) : World := W.subst c fun _ _ => .nil

/-- `_isAncestorOrSame(c, p)`: `p` is in the tree of `c`. -/
def inTree (t : Tree) (p : Nat) : Bool := (Forest.ids (Forest.single t)).contains p

/-- `p.append(c)`: moves `c` to the end of the children of `p`; refuses cycles. -/
def append (p c : Nat) : Py World Unit := fun W =>
  match W.find p, W.find c with
  | some _, some t =>
    if inTree t p then (W, .error .ValueError)
    else (Forest.mapKids p (· ++ Forest.single t) (detach c W), .ok ())
  | _, _ => (W, .error .TypeError)

/-- `p[i]`: Python index semantics. -/
def getitem (p : Nat) (i : Int) : Py World Nat := fun W =>
  match W.find p with
  | none => (W, .error .TypeError)
  | some t =>
    match pyIdx (roots t.2).length i with
    | none => (W, .error .IndexError)
    | some n =>
      match (roots t.2)[n]? with
      | none => (W, .error .IndexError)
      | some s => (W, .ok s)

/-- `p.insert(i, c)`: the sibling at index `i` is looked up first, then `c` is moved directly
before it; an index out of range appends.  Moving a node before itself does nothing. -/
def insert (p : Nat) (i : Int) (c : Nat) : Py World Unit := fun W =>
  match getitem p i W with
  | (_, .error .IndexError) => append p c W
  | (_, .error e) => (W, .error e)
  | (_, .ok s) =>
    match W.find c with
    | none => (W, .error .TypeError)
    | some t =>
      if inTree t p then (W, .error .ValueError)
      else if s = c then (W, .ok ())
      else ((detach c W).subst s fun e k => Forest.single t ++ Forest.single (e, k), .ok ())

/-- `p.index(c)`: `ValueError` if `c` is not a child of `p`. -/
def index (p c : Nat) : Py World Nat := fun W =>
  match W.find p with
  | none => (W, .error .TypeError)
  | some t =>
    if c ∈ roots t.2 then (W, .ok ((roots t.2).idxOf c)) else (W, .error .ValueError)

/-- `p.remove(c)`: `c` becomes a root of its own and keeps its tail; `ValueError` if `c` is not a
child of `p`. -/
def remove (p c : Nat) : Py World Unit := fun W =>
  match W.find p, W.find c with
  | some pt, some t =>
    if c ∈ roots pt.2 then (detach c W ++ Forest.single t, .ok ())
    else (W, .error .ValueError)
  | _, _ => (W, .error .TypeError)

/-- `del p[i]`: the child becomes a root of its own (it lives on if the program still holds it)
without its tail. -/
def delitem (p : Nat) (i : Int) : Py World Unit := fun W =>
  match getitem p i W with
  | (_, .error e) => (W, .error e)
  | (_, .ok c) =>
    match W.find c with
    | none => (W, .error .TypeError)
    | some t => (detach c W ++ Forest.single ({ t.1 with tail := none }, t.2), .ok ())

/-- `p.replace(old, new)`: `new` is moved to the place of `old`, which becomes a root of its own;
`ValueError` if `old` is not a child of `p` and for cycles.  Replacing a node by itself does
nothing. -/
def replace (p old new : Nat) : Py World Unit := fun W =>
  match W.find p, W.find old, W.find new with
  | some pt, some _, some t =>
    if old ∉ roots pt.2 then (W, .error .ValueError)
    else if inTree t p then (W, .error .ValueError)
    else if old = new then (W, .ok ())
    else
      let W1 := detach new W
      match W1.find old with
      | none => (W, .error .TypeError)
      | some o => (W1.subst old (fun _ _ => Forest.single t) ++ Forest.single o, .ok ())
  | _, _, _ => (W, .error .TypeError)

/-- `p.clear()`: attributes, text, tail and children are removed; the children become roots of
their own. -/
def clear (p : Nat) : Py World Unit := fun W =>
  match W.find p with
  | none => (W, .error .TypeError)
  | some t =>
    (W.subst p (fun e _ => Forest.single ({ e with attrs := [], text := none, tail := none }, .nil))
      ++ t.2, .ok ())

/-- `p.findall(tag)`: the children with that tag. -/
def findall (p : Nat) (tag : String) : Py World (List Nat) := fun W =>
  match W.find p with
  | none => (W, .error .TypeError)
  | some t => (W, .ok ((t.2.toList.filter fun u => u.1.tag = tag).map fun u => u.1.id))

end Verif.Lxml
